import Verif.Model.EntityThreads
import Verif.Props.LazyThreads
import Verif.Props.Raises
/-!
# C116: first calls of several threads on a `PackEntity`
-/
set_option autoImplicit false

namespace GitDB.Props
open GitDB Spec

section
variable {A V B W α β : Type} {R : A → V} {D : A → Prop} {cost : A → Nat} {R' : B → W} {D' : B → Prop} {cost' : B → Nat}

/-- Right code on a part is right code on the whole. -/
theorem rightCode_lift (f : A → B) (up : V → W) (down : W → V) (hdu : ∀ v, down (up v) = v) (hR : ∀ a, R' (f a) = up (R a))
    (hD : ∀ a, D a → D' (f a)) (hc : ∀ a, cost' (f a) = cost a) {Q : Res α → (A → Prop) → Prop} {Q' : Res α → (B → Prop) → Prop}
    (P0 : B → Prop) (hQ : ∀ r P, Q r P → Q' r (fun b => (∃ a, b = f a ∧ P a) ∨ P0 b)) :
    ∀ (l : Att A V α) (P : A → Prop) (n : Nat), RightCode R D cost Q l P n →
      RightCode R' D' cost' Q' (l.lift f up down) (fun b => (∃ a, b = f a ∧ P a) ∨ P0 b) n := by
  have grow : ∀ (a : A) (P : A → Prop), (fun b => (∃ a', b = f a' ∧ (a' = a ∨ P a')) ∨ P0 b) =
      fun b => b = f a ∨ ((∃ a', b = f a' ∧ P a') ∨ P0 b) := by
    intro a P
    funext b
    refine propext ⟨?_, ?_⟩
    · rintro (⟨a', rfl, rfl | h⟩ | h)
      · exact .inl rfl
      · exact .inr (.inl ⟨a', rfl, h⟩)
      · exact .inr (.inr h)
    · rintro (rfl | ⟨a', rfl, h⟩ | h)
      · exact .inl ⟨a, rfl, .inl rfl⟩
      · exact .inl ⟨a', rfl, .inr h⟩
      · exact .inr h
  intro l
  induction l with
  | ret r => exact fun P n h => hQ r P h
  | get a k ih =>
    rintro P n ⟨hd, m, hm, hl⟩
    refine ⟨hD a hd, m, hm.imp (fun e => ⟨.inl ⟨a, rfl, e.1⟩, e.2⟩) (fun e => by rw [hc]; exact e), ?_⟩
    have := ih _ _ m hl
    rw [grow] at this
    rw [hR]
    show RightCode R' D' cost' Q' ((k (down (up (R a)))).lift f up down) _ m
    rw [hdu]
    exact this
  | raw a k ih =>
    rintro P n ⟨hp, m, hm, hl⟩
    refine ⟨.inl ⟨a, rfl, hp⟩, m, hm, ?_⟩
    rw [hR]
    show RightCode R' D' cost' Q' ((k (down (up (R a)))).lift f up down) _ m
    rw [hdu]
    exact ih _ _ m hl
  | set a v k ih =>
    rintro P n ⟨hv, m, hm, hl⟩
    refine ⟨by rw [hR, hv], m, hm, ?_⟩
    have := ih _ m hl
    rw [grow] at this
    exact this

theorem rightFor_lift (f : A → B) (up : V → W) (down : W → V) (hdu : ∀ v, down (up v) = v) (hR : ∀ a, R' (f a) = up (R a))
    (hD : ∀ a, D a → D' (f a)) (hc : ∀ a, cost' (f a) = cost a) {Q : Res α → Prop} {l : Att A V α} (h : RightFor R D cost Q l) :
    RightFor R' D' cost' Q (l.lift f up down) := by
  obtain ⟨n, h⟩ := h
  refine ⟨n, rightCode_mono (Q := fun r _ => Q r) (fun _ _ _ _ h => h) _ _ _ n n ?_ (Nat.le_refl _)
    (rightCode_lift f up down hdu hR hD hc (Q' := fun r _ => Q r) (fun _ => False) (fun _ _ h => h) l _ n h)⟩
  rintro b (⟨a, -, h⟩ | h) <;> exact h
end

/-! ## The entity -/

/-- The attributes of a usable entity. -/
def eRight (p : PackEntity) (offs : List Nat) : EAttr → EVal
  | .idx a => .val (iRight p.index a)
  | .pk a => .val (pRight p.pack a)
  | .offsetMap => .pairs (offsetPairs (sortNats offs) (p.pack.data.length - 20))

/-- The attributes there are; `_offset_map` of an index that has objects. -/
def eAvail (p : PackEntity) (offs : List Nat) : EAttr → Prop
  | .idx a => iAvail p.index a
  | .pk _ => True
  | .offsetMap => p.index.offsets = .ok offs ∧ offs ≠ []

def eCost (n : Nat) : EAttr → Nat
  | .idx a => iCost a
  | .pk _ => 5
  | .offsetMap => n

theorem entity_fills {idx pack : Bytes} {p : PackEntity} (hi : IndexFile.load idx = .ok p.index) (hp : PackFile.load pack = .ok p.pack)
    (offs : List Nat) : ∃ n, Fills (eRight p offs) (eAvail p offs) (eCost n) (eSetCache idx pack) := by
  obtain ⟨n, hn⟩ := iright_offsets (x := p.index)
  refine ⟨n + (1 + 5 + 2), ?_⟩
  have same : ∀ {α : Type} (Q : Res α → Prop) (a : EAttr) (P : EAttr → Prop), ∀ r (P1 P2 : EAttr → Prop), (∀ a, P1 a → P2 a) →
      (Q r ∧ P1 a ∧ ∀ b, P b → P1 b) → (Q r ∧ P2 a ∧ ∀ b, P b → P2 b) :=
    fun Q a P r P1 P2 h hq => ⟨hq.1, h _ hq.2.1, fun b hb => h _ (hq.2.2 b hb)⟩
  rintro (a | a | _) ha P
  · refine rightCode_mono (same (· = .ok ()) _ P) _ _ P _ _ ?_ (Nat.le_refl _)
      (rightCode_lift (D := iAvail p.index) (cost := iCost) EAttr.idx EVal.val EVal.toVal (fun _ => rfl) (fun _ => rfl) (fun _ h => h) (fun _ => rfl)
        P ?_ _ _ _ (index_fills hi a ha fun a => P (.idx a)))
    · rintro b (⟨a, rfl, h⟩ | h) <;> exact h
    · rintro r P1 ⟨h1, h2, h3⟩
      exact ⟨h1, .inl ⟨a, rfl, h2⟩, fun b hb => .inr hb⟩
  · refine rightCode_mono (same (· = .ok ()) _ P) _ _ P _ _ ?_ (Nat.le_refl _)
      (rightCode_lift (D := fun _ => True) (cost := fun _ => 5) EAttr.pk EVal.val EVal.toVal (fun _ => rfl) (fun _ => rfl) (fun _ h => h) (fun _ => rfl)
        P ?_ _ _ _ (pack_fills hp a trivial fun a => P (.pk a)))
    · rintro b (⟨a, rfl, h⟩ | h) <;> exact h
    · rintro r P1 ⟨h1, h2, h3⟩
      exact ⟨h1, .inl ⟨a, rfl, h2⟩, fun b hb => .inr hb⟩
  · obtain ⟨ho, hne⟩ := ha
    refine rightCode_bind (Q := fun r P1 => r = .ok offs ∧ ∀ b, P b → P1 b) _ (1 + 5 + 2) ?_ ?_ _ P n ?_
    · exact fun e P1 h => absurd h.1 nofun
    · rintro o P1 j ⟨h1, h2⟩
      cases h1
      refine rightCode_mono (same (· = .ok ()) _ P) _ P1 P1 _ _ (fun _ h => h) (show 1 + 5 + 2 ≤ j + (1 + 5 + 2) by omega) ?_
      refine rightCode_get (n := 1) trivial ?_
      rw [if_neg hne]
      refine rightCode_set rfl ⟨rfl, .inl rfl, fun b hb => .inr (.inr (h2 b hb))⟩
    · refine rightCode_mono (Q := fun r P1 => r = .ok offs ∧ ∀ b, P b → P1 b) (fun r P1 P2 h hq => ⟨hq.1, fun b hb => h _ (hq.2 b hb)⟩) _ _ P _ _ ?_
        (Nat.le_refl _) (rightCode_lift (D := iAvail p.index) (cost := iCost) EAttr.idx EVal.val EVal.toVal (fun _ => rfl) (fun _ => rfl) (fun _ h => h)
        (fun _ => rfl) P ?_ _ _ _ hn)
      · rintro b (⟨a, rfl, h⟩ | h)
        · exact h.elim
        · exact h
      · rintro r P1 h1
        exact ⟨h1.trans ho, fun b hb => .inr hb⟩

section
variable {p : PackEntity} {offs : List Nat} {cost : Nat}

/-- Code on a usable entity that returns `r`. -/
abbrev ERight (p : PackEntity) (offs : List Nat) (cost : Nat) {α : Type} (r : Res α) (l : ECode α) : Prop :=
  RightFor (eRight p offs) (eAvail p offs) (eCost cost) (· = r) l

theorem eright_bind {α β : Type} {r : Res α} {l : ECode α} {f : α → ECode β} {r' : Res β} (h : ERight p offs cost r l)
    (he : ∀ e, r = .error e → r' = .error e) (hf : ∀ a, r = .ok a → ERight p offs cost r' (f a)) : ERight p offs cost r' (l.bind f) :=
  rightFor_bind (fun _ h => h) h (fun e h => (he e h).symm) hf

theorem eright_map {α β : Type} {r : Res α} {l : ECode α} (f : α → β) (h : ERight p offs cost r l) :
    ERight p offs cost (r.map f) (l.bind fun a => .ret (.ok (f a))) := by
  refine eright_bind h (fun e h => by rw [h]; rfl) fun a h => ?_
  rw [h]
  exact rightFor_ret rfl

theorem eright_idx {α : Type} {r : Res α} {l : ICode α} (h : IRight p.index r l) : ERight p offs cost r (eIdx l) :=
  rightFor_lift EAttr.idx EVal.val EVal.toVal (fun _ => rfl) (fun _ => rfl) (fun _ h => h) (fun _ => rfl) h

theorem eright_offset (i : Nat) : ERight p offs cost (p.index.offset i) (eOffset i) :=
  eright_idx (rightFor_get (by simp [iAvail]) (iright_offset i))

theorem eright_shaToIndex (sha : Bytes) : ERight p offs cost (p.shaToIndex sha) (eShaToIndex sha) := by
  unfold PackEntity.shaToIndex eShaToIndex
  refine eright_bind (eright_idx (iright_shaToIndex sha)) (fun e h => by rw [h]) fun r h => ?_
  rw [h]
  rcases r with _ | i <;> exact rightFor_ret rfl

/-- A look through the cursor of the pack. -/
theorem eright_cursor {α : Type} {r : Res α} {k : EVal → ECode α} (h : ERight p offs cost r (k (.val (.map p.pack.data)))) :
    ERight p offs cost r (.get (.pk .cursor) k) := rightFor_get trivial h

theorem eright_packStream (o : Nat) : ERight p offs cost (p.pack.stream o) (ePackStream o) := eright_cursor (rightFor_ret rfl)

theorem eright_resolve : ∀ (fuel : Nat) (o : PackObj), ERight p offs cost (p.resolveRefs fuel o) (eResolve fuel o) := by
  intro fuel
  induction fuel with
  | zero => exact fun _ => rightFor_ret rfl
  | succ fuel ih =>
    intro o
    unfold PackEntity.resolveRefs eResolve
    have key : ∀ ofs, ERight p offs cost (match p.pack.stream ofs with
          | .error e => .error e
          | .ok o' =>
            match p.resolveRefs fuel o' with
            | .error e => .error e
            | .ok l => .ok (o' :: l)) ((ePackStream ofs).bind fun o' => (eResolve fuel o').bind fun l => .ret (.ok (o' :: l))) := by
      intro ofs
      refine eright_bind (eright_packStream ofs) (fun e h => by rw [h]) fun o' h => ?_
      rw [h]
      dsimp only
      refine eright_bind (ih o') (fun e h => by rw [h]) fun l h => ?_
      rw [h]
      exact rightFor_ret rfl
    rcases o.info with _ | d | sha
    · exact rightFor_ret rfl
    · exact key d
    · refine eright_bind (eright_idx (iright_shaToIndex sha)) (fun e h => by simp only [h]) fun r h => ?_
      simp only [h]
      rcases r with _ | i
      · exact rightFor_ret rfl
      · refine eright_bind (eright_offset i) (fun e h => by simp only [h]) fun ofs h => ?_
        simp only [h]
        exact key ofs

theorem eright_collect (fuel o : Nat) : ERight p offs cost (p.collectStreamsAtOffset fuel o) (eCollect fuel o) := by
  unfold PackEntity.collectStreamsAtOffset eCollect
  refine eright_cursor ?_
  have hc : PackFile.collectStreams ⟨(EVal.val (.map p.pack.data)).data, 0, 0⟩ fuel o = p.pack.collectStreams fuel o := collect_data ..
  simp only [hc]
  rcases p.pack.collectStreams fuel o with e | l
  · exact rightFor_ret rfl
  · dsimp only
    rcases l.getLast? with _ | last
    · exact rightFor_ret rfl
    · dsimp only
      by_cases hr : last.typeId = REF_DELTA
      · rw [if_pos hr, if_pos hr]
        refine eright_bind (eright_resolve fuel last) (fun e h => by rw [h]) fun l2 h => ?_
        rw [h]
        exact rightFor_ret rfl
      · rw [if_neg hr, if_neg hr]
        exact rightFor_ret rfl

theorem eright_stream (fuel : Nat) (sha : Bytes) : ERight p offs cost (p.stream fuel sha) (eStream fuel sha) := by
  unfold PackEntity.stream eStream
  refine eright_bind (eright_shaToIndex sha) (fun e h => by rw [h]) fun i h => ?_
  rw [h]
  dsimp only
  unfold PackEntity.streamAt
  refine eright_bind (eright_offset i) (fun e h => by rw [h]) fun ofs h => ?_
  rw [h]
  refine eright_cursor ?_
  have hd : (EVal.val (.map p.pack.data)).data = p.pack.data := rfl
  rw [hd]
  dsimp only
  rcases packObjectHeaderInfo (p.pack.data.drop ofs) with e | ⟨t, n, j⟩
  · exact rightFor_ret rfl
  · dsimp only
    by_cases ht : t ≠ OFS_DELTA ∧ t ≠ REF_DELTA
    · rw [if_pos ht, if_pos ht]
      refine eright_bind (eright_packStream ofs) (fun e h => by rw [h]) fun o h => ?_
      rw [h]
      dsimp only
      rcases typeIdToType o.typeId with e | t <;> exact rightFor_ret rfl
    · rw [if_neg ht, if_neg ht]
      refine eright_bind (eright_collect fuel ofs) (fun e h => by rw [h]) fun l h => ?_
      rw [h]
      dsimp only
      rcases deltaNew l with e | ⟨t, s⟩ <;> exact rightFor_ret rfl

theorem eright_info (zl : Zlib) (fuel : Nat) (sha : Bytes) : ERight p offs cost (p.info zl fuel sha) (eInfo zl fuel sha) := by
  unfold PackEntity.info eInfo
  refine eright_bind (eright_shaToIndex sha) (fun e h => by rw [h]) fun i h => ?_
  rw [h]
  dsimp only
  unfold PackEntity.infoAt
  refine eright_bind (eright_offset i) (fun e h => by rw [h]) fun ofs h => ?_
  rw [h]
  refine eright_cursor ?_
  have hd : (EVal.val (.map p.pack.data)).data = p.pack.data := rfl
  rw [hd]
  dsimp only
  rcases packObjectHeaderInfo (p.pack.data.drop ofs) with e | ⟨t, n, j⟩
  · exact rightFor_ret rfl
  · dsimp only
    by_cases ht : t ≠ OFS_DELTA ∧ t ≠ REF_DELTA
    · rw [if_pos ht, if_pos ht]
      rcases typeIdToType t with e | t <;> exact rightFor_ret rfl
    · rw [if_neg ht, if_neg ht]
      refine eright_bind (eright_collect fuel ofs) (fun e h => by rw [h]) fun l h => ?_
      rw [h]
      dsimp only
      rcases l.head? with _ | first
      · exact rightFor_ret rfl
      rcases l.getLast? with _ | last
      · exact rightFor_ret rfl
      dsimp only
      rcases first.stream.read zl 512 with ⟨r, e | buf⟩
      · exact rightFor_ret rfl
      dsimp only
      rcases msbSize buf 0 with e | ⟨o1, s1⟩
      · exact rightFor_ret rfl
      dsimp only
      rcases msbSize buf o1 with e | ⟨o2, s2⟩
      · exact rightFor_ret rfl
      dsimp only
      split
      · exact rightFor_ret rfl
      · rcases typeIdToType last.typeId with e | t <;> exact rightFor_ret rfl

theorem eright_validCrc (fuel : Nat) (sha : Bytes) (ho : p.index.offsets = .ok offs) (hne : offs ≠ []) :
    ERight p offs cost (p.isValidCrc fuel sha) (eValidCrc fuel sha) := by
  unfold PackEntity.isValidCrc eValidCrc
  refine rightFor_get (show iAvail p.index .version by simp [iAvail]) ?_
  have hv : (eRight p offs (.idx .version)).toVal.toNum = p.index.version := rfl
  rw [hv]
  split
  · exact rightFor_ret rfl
  · refine eright_bind (eright_shaToIndex sha) (fun e h => by rw [h]) fun i h => ?_
    rw [h]
    dsimp only
    refine eright_bind (eright_offset i) (fun e h => by rw [h]) fun ofs h => ?_
    rw [h]
    dsimp only
    refine rightFor_get ⟨ho, hne⟩ ?_
    have hm : p.nextOffset ofs = dictGet (eRight p offs .offsetMap).toPairs ofs := by
      unfold PackEntity.nextOffset
      rw [ho]
      dsimp only
      rw [if_neg hne]
      rfl
    rw [hm]
    rcases dictGet (eRight p offs .offsetMap).toPairs ofs with e | next
    · exact rightFor_ret rfl
    · dsimp only
      refine eright_bind (eright_idx (rightFor_get (by simp [iAvail]) (iright_crc i))) (fun e h => by rw [h]) fun crc h => ?_
      rw [h]
      refine eright_cursor ?_
      have hd : (EVal.val (.map p.pack.data)).data = p.pack.data := rfl
      rw [hd]
      dsimp only
      rcases crcLoop p.pack.data chunkSize next fuel ofs 0 with e | c <;> exact rightFor_ret rfl

theorem eright_validSha (H : Hash) (zl : Zlib) (fuel : Nat) (sha : Bytes) :
    ERight p offs cost (p.isValidSha H zl fuel sha) (eValidSha H zl fuel sha) := by
  unfold PackEntity.isValidSha eValidSha
  refine eright_bind (eright_stream fuel sha) (fun e h => by rw [h]) fun o h => ?_
  rw [h]
  dsimp only
  rcases o.getSize zl fuel with e | size
  · exact rightFor_ret rfl
  · dsimp only
    rcases writeObject fuel o.type.text size (PStream.read zl fuel) Sha1Writer.writeInt chunkSize o.stream {} with ⟨s, w, e | x⟩
    · exact rightFor_ret rfl
    · exact rightFor_ret rfl
end

/-- What a call on an opened entity returns. -/
def entityAnswer (H : Hash) (zl : Zlib) (fuel : Nat) (p : PackEntity) : ECall → Res EOut
  | .info sha => (p.info zl fuel sha).map fun x => .info x.1 x.2
  | .stream sha => (p.stream fuel sha).map .stream
  | .validCrc sha => (p.isValidCrc fuel sha).map .valid
  | .validSha sha => (p.isValidSha H zl fuel sha).map .valid
  | .collect sha => (p.collectStreams fuel sha).map .streams
  | .index c => (indexAnswer p.index c).map .index

/-- Checking with crc needs `_offset_map`, which an index without objects does not have (`AssertionError`). -/
def UsableCall (p : PackEntity) : ECall → Prop
  | .validCrc _ => ∃ offs, p.index.offsets = .ok offs ∧ offs ≠ []
  | _ => True

theorem eright_call (H : Hash) (zl : Zlib) (fuel : Nat) {p : PackEntity} {offs : List Nat} {cost : Nat} (c : ECall)
    (ho : ∀ sha, c = .validCrc sha → p.index.offsets = .ok offs ∧ offs ≠ []) :
    ERight p offs cost (entityAnswer H zl fuel p c) (c.code H zl fuel) := by
  rcases c with sha | sha | sha | sha | sha | c
  · exact eright_map (fun x : PyName × Nat => EOut.info x.1 x.2) (eright_info zl fuel sha)
  · exact eright_map EOut.stream (eright_stream fuel sha)
  · exact eright_map EOut.valid (eright_validCrc fuel sha (ho sha rfl).1 (ho sha rfl).2)
  · exact eright_map EOut.valid (eright_validSha H zl fuel sha)
  · refine eright_map EOut.streams ?_
    unfold PackEntity.collectStreams
    refine eright_bind (eright_shaToIndex sha) (fun e h => by rw [h]) fun i h => ?_
    rw [h]
    dsimp only
    refine eright_bind (eright_offset i) (fun e h => by rw [h]) fun o h => ?_
    rw [h]
    exact eright_collect fuel o
  · exact eright_map EOut.index (eright_idx (iright_call p.index c))

/-- A new `PackEntity`, and one call of each thread. -/
def newEntity (H : Hash) (zl : Zlib) (fuel : Nat) (calls : List ECall) : LazySys EAttr EVal EOut :=
  ⟨fun _ => none, calls.map (ECall.code H zl fuel)⟩

theorem entity_calls (H : Hash) (zl : Zlib) (fuel : Nat) {idx pack : Bytes} {p : PackEntity} (hi : IndexFile.load idx = .ok p.index)
    (hp : PackFile.load pack = .ok p.pack) (calls : List ECall) (hu : ∀ c ∈ calls, UsableCall p c) :
    (∀ sched (i : Nat) c r, calls[i]? = some c →
        ((newEntity H zl fuel calls).run (eSetCache idx pack) sched).threads[i]? = some (.ret r) → r = entityAnswer H zl fuel p c) ∧
      ∀ (i : Nat) c, calls[i]? = some c → ∃ n, ∀ sched : List Nat, n ≤ sched.count i →
        ((newEntity H zl fuel calls).run (eSetCache idx pack) sched).threads[i]? = some (.ret (entityAnswer H zl fuel p c)) := by
  have : ∃ offs, ∀ c ∈ calls, ∀ sha, c = .validCrc sha → p.index.offsets = .ok offs ∧ offs ≠ [] := by
    by_cases h : ∃ offs, p.index.offsets = .ok offs ∧ offs ≠ []
    · obtain ⟨offs, h⟩ := h
      exact ⟨offs, fun _ _ _ _ => h⟩
    · refine ⟨[], fun c hc sha e => ?_⟩
      have := hu c hc
      rw [e] at this
      exact absurd this h
  obtain ⟨offs, ho⟩ := this
  obtain ⟨n, hf⟩ := entity_fills hi hp offs
  have h := calls_right (code := fun c : {c // c ∈ calls} => c.1.code H zl fuel) (answer := fun c => entityAnswer H zl fuel p c.1) hf
    (fun c => eright_call H zl fuel c.1 (ho c.1 c.2)) calls.attach
  have hm : calls.attach.map (fun c : {c // c ∈ calls} => c.1.code H zl fuel) = calls.map (ECall.code H zl fuel) := by
    have h2 : calls.attach.map (fun c : {c // c ∈ calls} => c.1.code H zl fuel) =
        (calls.attach.map Subtype.val).map (ECall.code H zl fuel) := by rw [List.map_map]; rfl
    rw [h2, List.attach_map_subtype_val]
  rw [hm] at h
  have hat : ∀ (i : Nat) c, calls[i]? = some c → ∃ d : {c // c ∈ calls}, d.1 = c ∧ calls.attach[i]? = some d := by
    intro i c hc
    refine ⟨⟨c, List.mem_of_getElem? hc⟩, rfl, ?_⟩
    have h2 : (calls.attach.map Subtype.val)[i]? = some c := by rw [List.attach_map_subtype_val]; exact hc
    rw [List.getElem?_map] at h2
    rcases h3 : calls.attach[i]? with _ | d
    · rw [h3] at h2; cases h2
    · rw [h3] at h2
      cases h2
      rfl
  refine ⟨fun sched i c r hc hr => ?_, fun i c hc => ?_⟩
  · obtain ⟨d, rfl, hd⟩ := hat i c hc
    exact h.1 sched i d r hd hr
  · obtain ⟨d, rfl, hd⟩ := hat i c hc
    exact h.2 i d hd

/-- **C116** whatever several threads first call on a new `PackEntity`, and however their steps alternate, a call that ends returns what it
returns on an opened one. -/
theorem C116_calls (H : Hash) (zl : Zlib) (fuel : Nat) {idx pack : Bytes} {p : PackEntity} (hi : IndexFile.load idx = .ok p.index)
    (hp : PackFile.load pack = .ok p.pack) (calls : List ECall) (hu : ∀ c ∈ calls, UsableCall p c) (sched : List Nat) (i : Nat) (c : ECall)
    (hc : calls[i]? = some c) (r : Res EOut)
    (hr : ((newEntity H zl fuel calls).run (eSetCache idx pack) sched).threads[i]? = some (.ret r)) : r = entityAnswer H zl fuel p c :=
  (entity_calls H zl fuel hi hp calls hu).1 sched i c r hc hr

/-- **C116** no thread waits for another: every call ends after a number of its own steps that does not depend on the other threads' steps. -/
theorem C116_ends (H : Hash) (zl : Zlib) (fuel : Nat) {idx pack : Bytes} {p : PackEntity} (hi : IndexFile.load idx = .ok p.index)
    (hp : PackFile.load pack = .ok p.pack) (calls : List ECall) (hu : ∀ c ∈ calls, UsableCall p c) (i : Nat) (c : ECall)
    (hc : calls[i]? = some c) : ∃ n, ∀ sched : List Nat, n ≤ sched.count i →
      ((newEntity H zl fuel calls).run (eSetCache idx pack) sched).threads[i]? = some (.ret (entityAnswer H zl fuel p c)) :=
  (entity_calls H zl fuel hi hp calls hu).2 i c hc

/-! ## Examples -/

/-- The blob `A` at 12. -/
def oneBlobPack : Bytes := [80, 65, 67, 75, 0, 0, 0, 2, 0, 0, 0, 1, 0x31, 65, 255] ++ List.replicate 20 0

def oneBlob : PackEntity := ⟨⟨smallIdx2 [0, 0, 0, 12], 2, List.replicate 256 1, 1052, 1056, 1060⟩, ⟨oneBlobPack, 2, 1⟩⟩

/-- The hypotheses of `C116_calls` and `C116_ends`. -/
example : IndexFile.load (smallIdx2 [0, 0, 0, 12]) = .ok oneBlob.index ∧ PackFile.load oneBlobPack = .ok oneBlob.pack ∧
    oneBlob.index.offsets = .ok [12] := by decide +kernel

/-- What ended calls answered, in short. -/
def shortOut : Att EAttr EVal EOut → Option (Res (Nat × Bool))
  | .ret (.ok (.info _ n)) => some (.ok (n, true))
  | .ret (.ok (.valid b)) => some (.ok (0, b))
  | .ret (.ok _) => some (.ok (1, false))
  | .ret (.error e) => some (.error e)
  | _ => none

/-- Three threads in turn, all of them filling the attributes, and a fourth that has only begun. -/
example : ((newEntity lenHash toyZlib 9 [.info (List.replicate 20 0), .validCrc (List.replicate 20 0), .validCrc (List.replicate 20 1),
      .info (List.replicate 20 0)]).run (eSetCache (smallIdx2 [0, 0, 0, 12]) oneBlobPack)
      ((List.replicate 90 [0, 1, 2]).flatten ++ [3, 3, 3])).threads.map shortOut =
    [some (.ok (1, true)), some (.ok (0, false)), some (.error .badObject), none] := by decide +kernel

end GitDB.Props
