import Verif.Model.SharedCursor
import Verif.Props.PackDamaged
import Verif.Props.PackDelta
/-!
# C109: several threads reading one pack
-/
set_option autoImplicit false

namespace GitDB.Props
open GitDB Spec

variable {zl : Zlib}

/-! ## What is expected -/

/-- What a call returns if nobody else uses the pack. -/
def aloneOut (zl : Zlib) (p : PackEntity) (fuel : Nat) : CursorCall → Res CursorOut
  | .stream sha => (p.stream fuel sha).map .stream
  | .info sha => (p.info zl fuel sha).map fun x => .info x.1 x.2
  | .data => .ok .data
  | .checksum => .ok (.checksum p.pack.checksum)

/-- `buffer()` after `use_region(off)`, for a pack in one region. -/
def dataFrom (p : PackEntity) (off : Nat) : Bytes := p.pack.data.drop off

/-- Threads that begin these calls. -/
def startCalls (zl : Zlib) (p : PackEntity) (fuel pos : Nat) (calls : List CursorCall) : CSys :=
  ⟨pos, calls.map fun c => .at (c.code zl p.index fuel p.pack.data.length)⟩

/-- Thread `i` is after `use_region` and before `buffer()`. -/
def Between (s : CSys) (i : Nat) : Prop := ∃ k, s.threads[i]? = some (.moved k)

/-- The next step of thread `j` is `use_region`. -/
def MovesNext (s : CSys) (j : Nat) : Prop :=
  ∃ off, (∃ k, s.threads[j]? = some (.at (.look off k))) ∨ ∃ k, s.threads[j]? = some (.at (.touch off k))

/-- While thread `i` is between the two calls, no other thread calls `use_region`. -/
def Undisturbed (view : Nat → Bytes) (i : Nat) : CSys → List Nat → Prop
  | _, [] => True
  | s, j :: l => (j ≠ i → Between s i → ¬MovesNext s j) ∧ Undisturbed view i (s.step view j) l

/-- Threads wait while another one is between the two calls, as with a lock around them. -/
def OneBetween (view : Nat → Bytes) : CSys → List Nat → Prop
  | _, [] => True
  | s, j :: l => (∀ i, i ≠ j → ¬Between s i) ∧ OneBetween view (s.step view j) l

/-! ## The code of the calls, undisturbed -/

theorem alone_bind {α β : Type} (view : Nat → Bytes) (f : α → Look β) : ∀ l : Look α,
    (l.bind f).alone view = match l.alone view with
      | .error e => .error e
      | .ok a => (f a).alone view
  | .ret (.error _) => rfl
  | .ret (.ok _) => rfl
  | .look off k => alone_bind view f (k (view off))
  | .touch _ k => alone_bind view f k

theorem packObject_alone (p : PackEntity) (off : Nat) :
    (packObjectL off).alone (dataFrom p) = packObjectAt p.pack.data off := rfl

theorem packStream_alone (p : PackEntity) (off : Nat) : (packStreamL off).alone (dataFrom p) = p.pack.stream off := rfl

theorem collect_alone (p : PackEntity) : ∀ fuel off, (collectStreamsL fuel off).alone (dataFrom p) = p.pack.collectStreams fuel off := by
  intro fuel
  induction fuel with
  | zero => intro off; rfl
  | succ fuel ih =>
    intro off
    unfold collectStreamsL PackFile.collectStreams
    rw [alone_bind, packObject_alone]
    rcases packObjectAt p.pack.data off with e | o
    · rfl
    · dsimp only
      rcases o.info with _ | d | s
      · rfl
      · dsimp only
        by_cases h : o.packOffset < d
        · rw [if_pos h, if_pos h]; rfl
        · rw [if_neg h, if_neg h, alone_bind, ih]
          rcases p.pack.collectStreams fuel (o.packOffset - d) with e | l <;> rfl
      · rfl

theorem resolve_alone (p : PackEntity) : ∀ fuel o, (resolveRefsL p.index fuel o).alone (dataFrom p) = p.resolveRefs fuel o := by
  intro fuel
  induction fuel with
  | zero => intro o; rfl
  | succ fuel ih =>
    intro o
    have key : ∀ ofs, ((packStreamL ofs).bind fun o' => (resolveRefsL p.index fuel o').bind fun l => .ret (.ok (o' :: l))).alone (dataFrom p) =
        (match p.pack.stream ofs with
          | .error e => .error e
          | .ok o' =>
            match p.resolveRefs fuel o' with
            | .error e => .error e
            | .ok l => .ok (o' :: l) : Res (List PackObj)) := by
      intro ofs
      rw [alone_bind, packStream_alone]
      rcases p.pack.stream ofs with e | o'
      · rfl
      · dsimp only
        rw [alone_bind, ih]
        rcases p.resolveRefs fuel o' with e | l <;> rfl
    unfold resolveRefsL PackEntity.resolveRefs
    rcases o.info with _ | d | s
    · rfl
    · exact key d
    · dsimp only
      rcases p.index.shaToIndex s with e | _ | i
      · rfl
      · rfl
      · dsimp only
        rcases p.index.offset i with e | ofs
        · rfl
        · exact key ofs

theorem collectAt_alone (p : PackEntity) (fuel off : Nat) :
    (collectAtOffsetL p.index fuel off).alone (dataFrom p) = p.collectStreamsAtOffset fuel off := by
  unfold collectAtOffsetL PackEntity.collectStreamsAtOffset
  rw [alone_bind, collect_alone]
  rcases p.pack.collectStreams fuel off with e | streams
  · rfl
  · dsimp only
    rcases streams.getLast? with _ | last
    · rfl
    · dsimp only
      by_cases h : last.typeId = REF_DELTA
      · rw [if_pos h, if_pos h, alone_bind, resolve_alone]
        rcases p.resolveRefs fuel last with e | l <;> rfl
      · rw [if_neg h, if_neg h]; rfl

theorem stream_alone (p : PackEntity) (fuel : Nat) (sha : Bytes) :
    (entityStreamL p.index fuel sha).alone (dataFrom p) = p.stream fuel sha := by
  unfold entityStreamL nameToOffset PackEntity.stream PackEntity.shaToIndex PackEntity.streamAt
  rcases p.index.shaToIndex sha with e | _ | i
  · rfl
  · rfl
  · dsimp only
    rcases p.index.offset i with e | ofs
    · rfl
    · dsimp only [Look.alone, dataFrom]
      rcases packObjectHeaderInfo (p.pack.data.drop ofs) with e | ⟨ty, sz, rela⟩
      · rfl
      · dsimp only
        by_cases h : ty ≠ OFS_DELTA ∧ ty ≠ REF_DELTA
        · rw [if_pos h, if_pos h]
          have := alone_bind (dataFrom p) (fun o : PackObj => match typeIdToType o.typeId with
            | .error e => .ret (.error e)
            | .ok t => .ret (.ok (⟨sha, t, some o.size, .base o.stream⟩ : OStream))) (packStreamL ofs)
          refine this.trans ?_
          rw [packStream_alone]
          rcases p.pack.stream ofs with e | o
          · rfl
          · dsimp only
            rcases typeIdToType o.typeId with e | t <;> rfl
        · rw [if_neg h, if_neg h]
          have := alone_bind (dataFrom p) (fun streams => match deltaNew streams with
            | .error e => .ret (.error e)
            | .ok (t, s) => .ret (.ok (⟨sha, t, none, s⟩ : OStream))) (collectAtOffsetL p.index fuel ofs)
          refine this.trans ?_
          rw [collectAt_alone]
          rcases p.collectStreamsAtOffset fuel ofs with e | streams
          · rfl
          · dsimp only
            rcases deltaNew streams with e | ⟨t, s⟩ <;> rfl

theorem info_alone (p : PackEntity) (fuel : Nat) (sha : Bytes) :
    (entityInfoL zl p.index fuel sha).alone (dataFrom p) = p.info zl fuel sha := by
  unfold entityInfoL nameToOffset PackEntity.info PackEntity.shaToIndex PackEntity.infoAt
  rcases p.index.shaToIndex sha with e | _ | i
  · rfl
  · rfl
  · dsimp only
    rcases p.index.offset i with e | ofs
    · rfl
    · dsimp only [Look.alone, dataFrom]
      rcases packObjectHeaderInfo (p.pack.data.drop ofs) with e | ⟨ty, sz, rela⟩
      · rfl
      · dsimp only
        by_cases h : ty ≠ OFS_DELTA ∧ ty ≠ REF_DELTA
        · rw [if_pos h, if_pos h]
          rcases typeIdToType ty with e | t <;> rfl
        · rw [if_neg h, if_neg h]
          have := alone_bind (dataFrom p) (fun streams => .ret (deltaInfo zl streams)) (collectAtOffsetL p.index fuel ofs)
          refine this.trans ?_
          rw [collectAt_alone]
          rcases p.collectStreamsAtOffset fuel ofs with e | streams <;> rfl

theorem code_alone (p : PackEntity) (fuel : Nat) (c : CursorCall) :
    (c.code zl p.index fuel p.pack.data.length).alone (dataFrom p) = aloneOut zl p fuel c := by
  rcases c with sha | sha | _ | _
  · dsimp only [CursorCall.code, aloneOut]
    rw [alone_bind, stream_alone]
    rcases p.stream fuel sha with e | o <;> rfl
  · dsimp only [CursorCall.code, aloneOut]
    rw [alone_bind, info_alone]
    rcases p.info zl fuel sha with e | o <;> rfl
  · rfl
  · rfl

/-! ## Threads that are not disturbed -/

/-- A thread that will return `r` if it is not disturbed any more. -/
def WillReturn (view : Nat → Bytes) (pos : Nat) (r : Res CursorOut) : CThread → Prop
  | .at l => l.alone view = r
  | .moved k => (k (view pos)).alone view = r

theorem undisturbed_run {view : Nat → Bytes} {i : Nat} {r : Res CursorOut} : ∀ (sched : List Nat) (s : CSys),
    Undisturbed view i s sched → (∀ t, s.threads[i]? = some t → WillReturn view s.pos r t) →
    ∀ t, (s.run view sched).threads[i]? = some t → WillReturn view (s.run view sched).pos r t := by
  intro sched
  induction sched with
  | nil => exact fun s _ h => h
  | cons j l ih =>
    intro s hu h
    refine ih (s.step view j) hu.2 ?_
    intro t ht
    unfold CSys.step at ht ⊢
    rcases hj : s.threads[j]? with _ | (_ | ⟨off, k⟩ | ⟨off, k⟩) | k
    · rw [hj] at ht; exact h t ht
    · rw [hj] at ht; exact h t ht
    · rw [hj] at ht
      dsimp only at ht ⊢
      by_cases hij : j = i
      · subst hij
        have hlt := (List.getElem?_eq_some_iff.1 hj).1
        rw [List.getElem?_set_self hlt] at ht
        cases ht
        exact h _ hj
      · rw [List.getElem?_set_ne hij] at ht
        have := h t ht
        rcases t with q | k'
        · exact this
        · exact absurd ⟨off, .inl ⟨k, hj⟩⟩ (hu.1 hij ⟨k', ht⟩)
    · rw [hj] at ht
      dsimp only at ht ⊢
      by_cases hij : j = i
      · subst hij
        have hlt := (List.getElem?_eq_some_iff.1 hj).1
        rw [List.getElem?_set_self hlt] at ht
        cases ht
        exact h _ hj
      · rw [List.getElem?_set_ne hij] at ht
        have := h t ht
        rcases t with q | k'
        · exact this
        · exact absurd ⟨off, .inr ⟨k, hj⟩⟩ (hu.1 hij ⟨k', ht⟩)
    · rw [hj] at ht
      dsimp only at ht ⊢
      by_cases hij : j = i
      · subst hij
        have hlt := (List.getElem?_eq_some_iff.1 hj).1
        rw [List.getElem?_set_self hlt] at ht
        cases ht
        exact h (.moved k) hj
      · rw [List.getElem?_set_ne hij] at ht
        exact h t ht

/-- **C109** a call returns what it returns with the pack for itself, if no other thread moves the cursor while it is between
`use_region` and `buffer()`; whatever the other threads call, and whenever. -/
theorem C109_undisturbed (p : PackEntity) (fuel pos : Nat) (calls : List CursorCall) (sched : List Nat) (i : Nat) (c : CursorCall)
    (hc : calls[i]? = some c) (hu : Undisturbed (dataFrom p) i (startCalls zl p fuel pos calls) sched) (r : Res CursorOut)
    (hr : ((startCalls zl p fuel pos calls).run (dataFrom p) sched).threads[i]? = some (.at (.ret r))) : r = aloneOut zl p fuel c := by
  refine undisturbed_run (r := aloneOut zl p fuel c) sched _ hu ?_ _ hr
  intro t ht
  simp only [startCalls, List.getElem?_map, hc, Option.map_some, Option.some.injEq] at ht
  subst ht
  exact code_alone p fuel c

theorem oneBetween_undisturbed {view : Nat → Bytes} (i : Nat) : ∀ (sched : List Nat) (s : CSys),
    OneBetween view s sched → Undisturbed view i s sched := by
  intro sched
  induction sched with
  | nil => exact fun _ _ => trivial
  | cons j l ih => exact fun s h => ⟨fun hij hb => absurd hb (h.1 i (Ne.symm hij)), ih _ h.2⟩

/-- **C109** so a lock around the two calls, or around the calls of the pack, is enough for all threads. -/
theorem C109_lock (p : PackEntity) (fuel pos : Nat) (calls : List CursorCall) (sched : List Nat)
    (hl : OneBetween (dataFrom p) (startCalls zl p fuel pos calls) sched) (i : Nat) (c : CursorCall) (hc : calls[i]? = some c)
    (r : Res CursorOut) (hr : ((startCalls zl p fuel pos calls).run (dataFrom p) sched).threads[i]? = some (.at (.ret r))) :
    r = aloneOut zl p fuel c :=
  C109_undisturbed p fuel pos calls sched i c hc (oneBetween_undisturbed i sched _ hl) r hr

/-! ## Threads that disturb each other -/

/-- The name is in the index, at an offset behind the header of the pack, and its object is not a delta. -/
def Undeltified (p : PackEntity) (fuel : Nat) (sha : Bytes) : Prop :=
  ∃ ofs o r, nameToOffset p.index sha = .ok ofs ∧ ofs ≠ 0 ∧ p.stream fuel sha = .ok o ∧ o.stream = .base r

theorem undeltified_look {p : PackEntity} {fuel : Nat} {sha : Bytes} (h : Undeltified p fuel sha) (ofs : Nat)
    (ho : nameToOffset p.index sha = .ok ofs) : ofs ≠ 0 ∧ ∃ ty size rela t, packObjectHeaderInfo (dataFrom p ofs) = .ok (ty, size, rela) ∧
      (ty ≠ OFS_DELTA ∧ ty ≠ REF_DELTA) ∧ typeIdToType ty = .ok t ∧
      p.stream fuel sha = .ok ⟨sha, t, some size, .base (Reader.ofSize ((dataFrom p ofs).drop rela) size)⟩ ∧
      p.info zl fuel sha = .ok (t, size) := by
  obtain ⟨ofs', o, r, h1, h2, h3, h4⟩ := h
  cases h1.symm.trans ho
  refine ⟨h2, ?_⟩
  have hs := stream_alone p fuel sha
  have hi := info_alone (zl := zl) p fuel sha
  rw [h3] at hs
  unfold entityStreamL at hs
  unfold entityInfoL at hi
  rw [ho] at hs hi
  dsimp only [Look.alone] at hs hi
  rcases hh : packObjectHeaderInfo (dataFrom p ofs) with e | ⟨ty, size, rela⟩
  · rw [hh] at hs; cases hs
  · rw [hh] at hs hi
    dsimp only at hs hi
    by_cases hd : ty ≠ OFS_DELTA ∧ ty ≠ REF_DELTA
    · rw [if_pos hd] at hs hi
      rw [alone_bind] at hs
      have hp : (packStreamL ofs).alone (dataFrom p) =
          .ok ⟨ofs, ty, size, .none, ofs + rela, Reader.ofSize ((dataFrom p ofs).drop rela) size⟩ := by
        unfold packStreamL packObjectL packObjectFrom
        rw [if_neg h2]
        dsimp only [Look.alone]
        rw [hh]
        dsimp only
        rw [if_neg hd.1, if_neg hd.2]
      rw [hp] at hs
      dsimp only at hs
      rcases ht : typeIdToType ty with e | t
      · rw [ht] at hs; cases hs
      · rw [ht] at hs hi
        dsimp only [Look.alone] at hs hi
        exact ⟨ty, size, rela, t, rfl, hd, ht, by rw [h3, ← hs], hi.symm⟩
    · rw [if_neg hd, alone_bind] at hs
      rcases hcol : (collectAtOffsetL p.index fuel ofs).alone (dataFrom p) with e | streams
      · rw [hcol] at hs; cases hs
      · rw [hcol] at hs
        dsimp only at hs
        unfold deltaNew at hs
        split at hs
        · cases hs
        · rename_i x t s heq
          split at heq
          · cases heq
          · split at heq
            · cases heq
            · split at heq
              · cases heq
              · split at heq
                · cases heq
                · cases heq
                  simp only [Look.alone, Except.ok.injEq] at hs
                  rw [← hs] at h4
                  cases h4

/-- Whatever is seen at places of `offs`, the call asks for such places only, and its result is one of `Q`. -/
def FineLook (view : Nat → Bytes) (offs : Nat → Prop) (Q : Res CursorOut → Prop) : Look CursorOut → Prop
  | .ret r => Q r
  | .look off k => offs off ∧ ∀ o, offs o → FineLook view offs Q (k (view o))
  | .touch off k => offs off ∧ FineLook view offs Q k

def FineThread (view : Nat → Bytes) (offs : Nat → Prop) (Q : Res CursorOut → Prop) : CThread → Prop
  | .at l => FineLook view offs Q l
  | .moved k => ∀ o, offs o → FineLook view offs Q (k (view o))

theorem fine_step {view : Nat → Bytes} {offs : Nat → Prop} {Q : Nat → Res CursorOut → Prop} (s : CSys)
    (h : ∀ (i : Nat) t, s.threads[i]? = some t → FineThread view offs (Q i) t) (hb : ∀ i, Between s i → offs s.pos) (j : Nat) :
    (∀ (i : Nat) t, (s.step view j).threads[i]? = some t → FineThread view offs (Q i) t) ∧
      ∀ i, Between (s.step view j) i → offs (s.step view j).pos := by
  have set : ∀ t', FineThread view offs (Q j) t' → ∀ (i : Nat) t, (s.threads.set j t')[i]? = some t → FineThread view offs (Q i) t := by
    intro t' h' i t ht
    rw [List.getElem?_set] at ht
    split at ht
    · rename_i hji
      subst hji
      split at ht
      · cases ht; exact h'
      · cases ht
    · exact h i t ht
  unfold CSys.step
  rcases hj : s.threads[j]? with _ | (_ | ⟨off, k⟩ | ⟨off, k⟩) | k
  · exact ⟨h, hb⟩
  · exact ⟨h, hb⟩
  · exact ⟨set _ (h j _ hj).2, fun _ _ => (h j _ hj).1⟩
  · exact ⟨set _ (h j _ hj).2, fun _ _ => (h j _ hj).1⟩
  · exact ⟨set _ (h j _ hj _ (hb j ⟨k, hj⟩)), fun _ _ => hb j ⟨k, hj⟩⟩

theorem fine_run {view : Nat → Bytes} {offs : Nat → Prop} {Q : Nat → Res CursorOut → Prop} : ∀ (sched : List Nat) (s : CSys),
    (∀ (i : Nat) t, s.threads[i]? = some t → FineThread view offs (Q i) t) → (∀ i, Between s i → offs s.pos) →
    ∀ (i : Nat) r, (s.run view sched).threads[i]? = some (.at (.ret r)) → Q i r := by
  intro sched
  induction sched with
  | nil => exact fun s h _ i r hr => h i _ hr
  | cons j l ih =>
    intro s h hb
    exact ih (s.step view j) (fine_step s h hb j).1 (fine_step s h hb j).2

/-- The names that threads ask for. -/
def askedNames : List CursorCall → List Bytes
  | [] => []
  | .stream sha :: l => sha :: askedNames l
  | .info sha :: l => sha :: askedNames l
  | _ :: l => askedNames l

/-- A whole object of the pack, for a name some thread asked for. -/
def OfSome (zl : Zlib) (p : PackEntity) (fuel : Nat) (names : List Bytes) : CursorCall → Res CursorOut → Prop
  | .stream sha, r => ∃ sha' ∈ names, ∃ o, p.stream fuel sha' = .ok o ∧ r = .ok (.stream { o with sha := sha })
  | .info _, r => ∃ sha' ∈ names, ∃ t size, p.info zl fuel sha' = .ok (t, size) ∧ r = .ok (.info t size)
  | _, _ => False

theorem mem_askedNames {calls : List CursorCall} {i : Nat} {sha : Bytes}
    (h : calls[i]? = some (.stream sha) ∨ calls[i]? = some (.info sha)) : sha ∈ askedNames calls := by
  induction calls generalizing i with
  | nil => rcases h with h | h <;> cases h
  | cons c l ih =>
    rcases i with _ | i
    · rcases h with h | h <;> (cases h; exact List.mem_cons_self)
    · have := ih (i := i) (by simpa using h)
      rcases c with _ | _ | _ | _
      · exact List.mem_cons_of_mem _ this
      · exact List.mem_cons_of_mem _ this
      · exact this
      · exact this

/-- **C109** however the threads disturb each other: as long as they ask `stream` and `info` for objects that are not deltas, every
call succeeds, and what it returns is one whole object of the pack, its type, size and data together: that of the name, or of
a name another thread asks for. -/
theorem C109_whole (p : PackEntity) (fuel pos : Nat) (calls : List CursorCall) (sched : List Nat)
    (hk : ∀ c ∈ calls, ∃ sha, c = .stream sha ∨ c = .info sha) (hn : ∀ sha ∈ askedNames calls, Undeltified p fuel sha)
    (i : Nat) (c : CursorCall) (hc : calls[i]? = some c) (r : Res CursorOut)
    (hr : ((startCalls zl p fuel pos calls).run (dataFrom p) sched).threads[i]? = some (.at (.ret r))) :
    OfSome zl p fuel (askedNames calls) c r := by
  refine fine_run (offs := fun o => ∃ sha ∈ askedNames calls, nameToOffset p.index sha = .ok o)
    (Q := fun i r => ∀ c, calls[i]? = some c → OfSome zl p fuel (askedNames calls) c r) sched _ ?_ ?_ i r hr c hc
  · intro i t ht
    simp only [startCalls, List.getElem?_map] at ht
    rcases hi : calls[i]? with _ | c
    · rw [hi] at ht; cases ht
    rw [hi] at ht
    cases ht
    show FineLook _ _ _ _
    simp only [Option.some.injEq, forall_eq']
    obtain ⟨sha, rfl | rfl⟩ := hk c (List.mem_of_getElem? hi)
    · have hm := mem_askedNames (.inl hi)
      obtain ⟨ofs, -, -, h1, -⟩ := hn sha hm
      have h0 := (undeltified_look (zl := zl) (hn sha hm) ofs h1).1
      dsimp only [CursorCall.code]
      unfold entityStreamL
      rw [h1]
      refine ⟨⟨sha, hm, h1⟩, ?_⟩
      rintro o ⟨sha', hm', ho⟩
      obtain ⟨-, ty, size, rela, t, k1, k2, -⟩ := undeltified_look (zl := zl) (hn sha' hm') o ho
      dsimp only
      rw [k1]
      dsimp only
      rw [if_pos k2]
      unfold packStreamL packObjectL
      rw [if_neg h0]
      refine ⟨⟨sha, hm, h1⟩, ?_⟩
      rintro o ⟨sha', hm', ho⟩
      obtain ⟨-, ty, size, rela, t, k1, k2, k3, k4, -⟩ := undeltified_look (zl := zl) (hn sha' hm') o ho
      dsimp only [packObjectFrom]
      rw [k1]
      dsimp only
      rw [if_neg k2.1, if_neg k2.2]
      dsimp only [Look.bind]
      rw [k3]
      exact ⟨sha', hm', _, k4, rfl⟩
    · have hm := mem_askedNames (.inr hi)
      obtain ⟨ofs, -, -, h1, -⟩ := hn sha hm
      dsimp only [CursorCall.code]
      unfold entityInfoL
      rw [h1]
      refine ⟨⟨sha, hm, h1⟩, ?_⟩
      rintro o ⟨sha', hm', ho⟩
      obtain ⟨-, ty, size, rela, t, k1, k2, k3, -, k5⟩ := undeltified_look (zl := zl) (hn sha' hm') o ho
      dsimp only
      rw [k1]
      dsimp only
      rw [if_pos k2, k3]
      exact ⟨sha', hm', t, size, k5, rfl⟩
  · rintro i ⟨k, hk⟩
    simp only [startCalls, List.getElem?_map] at hk
    rcases hi : calls[i]? with _ | c
    · rw [hi] at hk; cases hk
    · rw [hi] at hk; cases hk

/-- **C109** it may be another object: for any two such names there is an order of the steps of two threads in which `stream` of the first
name returns the type, the size and the data of the second object under the first name, while the other thread gets what it
asked for. -/
theorem C109_swapped (p : PackEntity) (fuel pos : Nat) (a b : Bytes) (ha : Undeltified p fuel a) (hb : Undeltified p fuel b) (o : OStream)
    (ho : p.stream fuel b = .ok o) :
    ((startCalls zl p fuel pos [.stream a, .stream b]).run (dataFrom p) [0, 1, 0, 0, 1, 1, 0, 1]).threads =
      [.at (.ret (.ok (.stream { o with sha := a }))), .at (.ret (.ok (.stream o)))] := by
  obtain ⟨oa, -, -, ha1, -⟩ := id ha
  obtain ⟨ob, -, -, hb1, -⟩ := id hb
  obtain ⟨a0, tya, sza, ra, ta, a1, a2, a3, a4, -⟩ := undeltified_look (zl := zl) ha oa ha1
  obtain ⟨b0, tyb, szb, rb, tb, b1, b2, b3, b4, -⟩ := undeltified_look (zl := zl) hb ob hb1
  cases ho.symm.trans b4
  simp [startCalls, CursorCall.code, entityStreamL, ha1, hb1, CSys.run, CSys.step, Look.bind, a1, b1, packStreamL, packObjectL, a0, b0,
    packObjectFrom, a2, b2, b3]

/-- **C109** the same for `info`: three steps are enough. -/
theorem C109_info_swapped (p : PackEntity) (fuel pos : Nat) (a b : Bytes) (ha : Undeltified p fuel a) (hb : Undeltified p fuel b)
    (t : PyName) (size : Nat) (ho : p.info zl fuel b = .ok (t, size)) :
    ((startCalls zl p fuel pos [.info a, .info b]).run (dataFrom p) [0, 1, 0]).threads[0]? = some (.at (.ret (.ok (.info t size)))) := by
  obtain ⟨oa, -, -, ha1, -⟩ := id ha
  obtain ⟨ob, -, -, hb1, -⟩ := id hb
  obtain ⟨b0, tyb, szb, rb, tb, b1, b2, b3, -, b5⟩ := undeltified_look (zl := zl) hb ob hb1
  cases ho.symm.trans b5
  simp [startCalls, CursorCall.code, entityInfoL, ha1, hb1, CSys.run, CSys.step, Look.bind, b1, b2, b3]

/-- **C109** `data()`, which checking a crc begins with, moves the cursor to the beginning of the file: a thread that asks for any
object may be told that its type is empty and its size 0. -/
theorem C109_data (p : PackEntity) (hp : PackFile.load p.pack.data = .ok p.pack) (fuel pos : Nat) (sha : Bytes) (ofs : Nat)
    (hs : nameToOffset p.index sha = .ok ofs) :
    ((startCalls zl p fuel pos [.info sha, .data]).run (dataFrom p) [0, 1, 0]).threads[0]? =
      some (.at (.ret (.ok (.info (.bytes []) 0)))) := by
  have h0 : packObjectHeaderInfo (dataFrom p 0) = .ok (5, 0, 1) := by
    rcases C55_open p.pack.data with ⟨q, -, -, -, h⟩ | ⟨h, -⟩ | ⟨h, -⟩
    · unfold dataFrom
      rcases hd : p.pack.data with _ | ⟨x, l⟩
      · rw [hd] at h; cases h
      · rw [hd] at h
        simp only [List.take_succ_cons, List.cons.injEq] at h
        rw [h.1]
        rcases l with _ | ⟨y, l⟩ <;> rfl
    · rw [h] at hp; cases hp
    · rw [h] at hp; cases hp
  simp [startCalls, CursorCall.code, entityInfoL, hs, CSys.run, CSys.step, Look.bind, h0, OFS_DELTA, REF_DELTA, typeIdToType]

/-- The full statement: every call returns what it would return alone. -/
def C109_full : Prop := ∀ (zl : Zlib) (_ : ZlibLaws zl) (p : PackEntity) (fuel pos : Nat) (calls : List CursorCall) (sched : List Nat)
  (i : Nat) (c : CursorCall) (r : Res CursorOut), calls[i]? = some c →
  ((startCalls zl p fuel pos calls).run (dataFrom p) sched).threads[i]? = some (.at (.ret r)) → r = aloneOut zl p fuel c

/-! ## Cases -/

theorem badPack_entity : entityOf badPack =
    ⟨v2File ((idxOf 12 badPack).map IdxObj.toEntry) (List.replicate 20 0) (List.replicate 20 0),
      ⟨packFile badPack (List.replicate 20 0), 2, 5⟩⟩ := by
  unfold entityOf
  rw [badPack_sorted]
  rfl

theorem badPack_offset (n : UInt8) (h : n = 0 ∨ n = 1 ∨ n = 2) : nameToOffset (entityOf badPack).index (List.replicate 20 n) =
    .ok (if n = 0 then 12 else if n = 1 then 17 else 22) := by
  rw [badPack_entity]
  rcases h with rfl | rfl | rfl <;> decide +kernel

theorem badPack_undeltified (n : UInt8) (h : n = 0 ∨ n = 1 ∨ n = 2) : Undeltified (entityOf badPack) 5 (List.replicate 20 n) := by
  have ho := badPack_offset n h
  have hi : ∃ i, (entityOf badPack).shaToIndex (List.replicate 20 n) = .ok i ∧ ∃ ofs, (entityOf badPack).index.offset i = .ok ofs ∧
      nameToOffset (entityOf badPack).index (List.replicate 20 n) = .ok ofs := by
    unfold nameToOffset at ho ⊢
    unfold PackEntity.shaToIndex
    rcases hs : (entityOf badPack).index.shaToIndex (List.replicate 20 n) with e | _ | i
    · rw [hs] at ho; cases ho
    · rw [hs] at ho; cases ho
    · rw [hs] at ho
      exact ⟨i, rfl, _, ho, ho⟩
  obtain ⟨i, h1, ofs, h2, h3⟩ := hi
  have h4 := h3.symm.trans ho
  cases h4
  refine ⟨if n = 0 then 12 else if n = 1 then 17 else 22, ?_⟩
  unfold PackEntity.stream PackEntity.streamAt
  rw [h1]
  dsimp only
  rw [h2]
  dsimp only
  rcases h with rfl | rfl | rfl
  · exact ⟨_, _, ho, by decide, rfl, rfl⟩
  · exact ⟨_, _, ho, by decide, rfl, rfl⟩
  · exact ⟨_, _, ho, by decide, rfl, rfl⟩

theorem badPack_infos : (entityOf badPack).info toyZlib 5 (List.replicate 20 0) = .ok (.bytes strCommitType, 3) ∧
    (entityOf badPack).info toyZlib 5 (List.replicate 20 2) = .ok (.bytes strBlobType, 5) := by
  rw [badPack_entity]
  constructor <;> decide +kernel

/-- **C109** the full statement is false: a commit of three bytes is reported as a blob of five. -/
theorem C109_not_full : ¬C109_full := by
  intro h
  have h1 := h toyZlib toyZlib_laws (entityOf badPack) 5 0 [.info (List.replicate 20 0), .info (List.replicate 20 2)] [0, 1, 0] 0
    (.info (List.replicate 20 0)) _ rfl
    (C109_info_swapped (entityOf badPack) 5 0 _ _ (badPack_undeltified 0 (.inl rfl)) (badPack_undeltified 2 (.inr (.inr rfl))) _ _
      badPack_infos.2)
  dsimp only [aloneOut] at h1
  rw [badPack_infos.1] at h1
  simp only [Except.map, Except.ok.injEq, CursorOut.info.injEq] at h1
  exact absurd h1.2 (by decide)

/-- Type and data of the stream a thread got. -/
def streamRead (t : Option CThread) : Option (PyName × Res Bytes) :=
  match t with
  | some (.at (.ret (.ok (.stream o)))) => some (o.type, (o.stream.read toyZlib 50 (-1)).2)
  | _ => none

/-- **C109** with deltas, data that are no object of the pack: the thread takes the distance from a delta another thread asked
for, goes back from its own offset by that distance, and takes what is there, in the middle of an object, for the base. -/
theorem C109_deltas : let s := startCalls toyZlib (entityOf badPack) 50 0 [.stream (List.replicate 20 4), .info (List.replicate 20 3)]
    streamRead (s.run (dataFrom (entityOf badPack)) [0, 0, 0, 1, 0, 0, 0]).threads[0]? = some (.bytes [], .ok [88, 0, 0]) ∧
    (entityOf badPack).pack.data[27]? = (fillE.bytes)[5]? := by
  rw [badPack_entity]
  constructor <;> decide +kernel

/-- Two threads one after the other, and a third one that waits. -/
theorem waiting (p : PackEntity) (fuel pos : Nat) (a b : Bytes) (ha : Undeltified p fuel a) (hb : Undeltified p fuel b) :
    OneBetween (dataFrom p) (startCalls zl p fuel pos [.info a, .info b, .data]) [0, 0, 1, 1, 2] := by
  obtain ⟨oa, -, -, ha1, -⟩ := id ha
  obtain ⟨ob, -, -, hb1, -⟩ := id hb
  obtain ⟨a0, tya, sza, ra, ta, a1, a2, a3, -⟩ := undeltified_look (zl := zl) ha oa ha1
  obtain ⟨b0, tyb, szb, rb, tb, b1, b2, b3, -⟩ := undeltified_look (zl := zl) hb ob hb1
  simp [OneBetween, startCalls, CursorCall.code, entityInfoL, ha1, hb1, CSys.step, Look.bind, Between, a1, a2, a3, b1, b2, b3]
  refine ⟨?_, ?_, ?_, ?_, ?_⟩ <;> intro i hi k <;> rcases i with _ | _ | _ | i <;> simp at hi ⊢

example := C109_lock (zl := toyZlib) (entityOf badPack) 5 0 _ _
  (waiting _ _ _ _ _ (badPack_undeltified 0 (.inl rfl)) (badPack_undeltified 2 (.inr (.inr rfl))))
example := C109_swapped (zl := toyZlib) (entityOf badPack) 5 0 _ _ (badPack_undeltified 0 (.inl rfl)) (badPack_undeltified 2 (.inr (.inr rfl)))
example := C109_data (zl := toyZlib) (entityOf badPack) (by decide +kernel) 5 0 _ _ (badPack_offset 1 (.inr (.inl rfl)))

example := C109_whole (zl := toyZlib) (entityOf badPack) 5 0 [.stream (List.replicate 20 0), .info (List.replicate 20 2)] [0, 1, 0, 1, 0, 0]
  (by simp) (by simp only [askedNames, List.mem_cons, List.not_mem_nil, or_false, forall_eq_or_imp, forall_eq]
                exact ⟨badPack_undeltified 0 (.inl rfl), badPack_undeltified 2 (.inr (.inr rfl))⟩)

end GitDB.Props
