import Verif.Props.Live
import Verif.Props.Damaged
import Verif.Props.Raises
/-!
# C93: a `GitDB` finds nothing that was never there
-/
set_option autoImplicit false

namespace GitDB.Props
open GitDB Spec

variable {ω σ α β : Type}

/-! ## What was there -/

/-- The repositories that were referred to at some time, directly or through others. -/
inductive Referred (H : Disk → Prop) (p : Text) : Text → Prop
  | self : Referred H p p
  | step {q r : Text} {D : Disk} (hq : Referred H p q) (hD : H D) (h : Alt D q r) : Referred H p r

/-- The bytes of the name are in the list of names of an index file of version 1 or 2. -/
def NamedIn (index name : Bytes) : Prop := ∃ v i, (index.drop (namePos v i)).take 20 = name

/-- At some time there was a file for the object, or an index file next to a pack listed it. -/
def WasThere (H : Disk → Prop) (p : Text) (sha : Bytes) : Prop :=
  ∃ q D, Referred H p q ∧ H D ∧ (LooseThere D q sha ∨ ∃ d pack c, D.pack q = some d ∧ d.get (idxName pack) = some c ∧ NamedIn c sha)

/-! ## Databases that find only such objects -/

/-- States stay in `I`, and what is found is in `S`. -/
structure OnlyFinds (O : DbOps ω σ α) (w : ω) (I : σ → Prop) (S : Bytes → Prop) : Prop where
  keep : ∀ s call, I s → I (callStep O w s call)
  hit : ∀ s sha, sha ≠ [] → I s → (O.has w s sha).2 = .ok true → S sha

/-- The cache of a compound database has only such names. -/
def CacheOnly (S : Bytes → Prop) (cache : List (Bytes × Nat)) : Prop := ∀ sha i, sha ≠ [] → nameGet sha cache = some i → S sha

def CompoundOnly (I : σ → Prop) (S : Bytes → Prop) (c : Compound σ) : Prop := (∀ s ∈ c.dbs, I s) ∧ CacheOnly S c.cache

theorem scan_only {O : DbOps ω σ α} {w : ω} {I : σ → Prop} {S : Bytes → Prop} (h : OnlyFinds O w I S) {sha : Bytes} (hs : sha ≠ []) :
    ∀ (l : List σ) (k i : Nat), (∀ s ∈ l, I s) → (scanDbs O w sha l k).2 = .ok (some i) → S sha
  | [], _, _, _, e => by cases e
  | s :: l, k, i, hl, e => by
    unfold scanDbs at e
    have h1 := h.hit s sha hs (hl s (by simp))
    rcases hh : O.has w s sha with ⟨s', e' | (_ | _)⟩ <;> rw [hh] at e h1
    · cases e
    · exact scan_only h hs l (k + 1) i (fun s hs => hl s (by simp [hs])) e
    · exact h1 rfl

theorem query_only {O : DbOps ω σ α} {w : ω} {I : σ → Prop} {S : Bytes → Prop} (h : OnlyFinds O w I S) (c : Compound σ)
    (hc : CompoundOnly I S c) (sha : Bytes) :
    CacheOnly S (c.query O w sha).1.cache ∧ ∀ i, sha ≠ [] → (c.query O w sha).2 = .ok i → S sha := by
  unfold Compound.query
  rcases hg : nameGet sha c.cache with _ | i
  · simp only
    have h1 := fun (hs : sha ≠ []) (i : Nat) => scan_only h hs c.dbs 0 i hc.1
    rcases hq : scanDbs O w sha c.dbs 0 with ⟨l, e | (_ | i)⟩ <;> rw [hq] at h1
    · exact ⟨hc.2, fun i _ e => by cases e⟩
    · exact ⟨hc.2, fun i _ e => by cases e⟩
    · refine ⟨?_, fun _ hs _ => h1 hs i rfl⟩
      intro x k hx hk
      by_cases hxs : x = sha
      · subst hxs; exact h1 hx i rfl
      · simp only at hk
        rw [nameGet_set_other _ hxs] at hk
        exact hc.2 x k hx hk
  · exact ⟨hc.2, fun _ hs _ => hc.2 sha i hs hg⟩

theorem compound_only {O : DbOps ω σ α} {w : ω} {I : σ → Prop} {S : Bytes → Prop} (h : OnlyFinds O w I S) :
    OnlyFinds (compoundOps O) w (CompoundOnly I S) S := by
  refine ⟨fun c call hc => ⟨?_, ?_⟩, fun c sha hs hc e => ?_⟩
  · exact (compound_inv (O := O) (w := w) (I := I) (g := fun _ => ()) (fun s call hs => ⟨rfl, h.keep s call hs⟩) c call hc.1).2
  · cases call with
    | update force => intro sha i _ e; cases e
    | read op =>
      cases op with
      | has sha =>
        have : callStep (compoundOps O) w c (.read (.has sha)) = (c.query O w sha).1 := compoundHas_fst O w c sha
        rw [this]
        exact (query_only h c hc sha).1
      | get sha =>
        show CacheOnly S (c.get O w sha).1.cache
        have h1 := (query_only h c hc sha).1
        unfold Compound.get
        rcases hq : c.query O w sha with ⟨c', e | i⟩ <;> rw [hq] at h1 <;> exact h1
      | size => exact hc.2
      | shas => exact hc.2
  · have h1 := (query_only h c hc sha).2
    have e : (c.has O w sha).2 = .ok true := e
    unfold Compound.has at e
    rcases hq : c.query O w sha with ⟨c', e' | i⟩
    · rw [hq] at e
      cases e' <;> cases e
    · rw [hq] at h1
      exact h1 i hs rfl

theorem compound_get_only {O : DbOps ω σ α} {w : ω} {I : σ → Prop} {S : Bytes → Prop} (h : OnlyFinds O w I S) (c : Compound σ)
    (hc : CompoundOnly I S c) (sha : Bytes) (hs : sha ≠ []) (x : α) (e : (c.get O w sha).2 = .ok x) : S sha := by
  have h1 := (query_only h c hc sha).2
  unfold Compound.get at e
  rcases hq : c.query O w sha with ⟨c', e' | i⟩
  · rw [hq] at e; cases e
  · rw [hq] at h1
    exact h1 i hs rfl

theorem pair_call (O : DbOps ω σ α) (w : ω) (x : Text × σ) (call : LiveCall) :
    callStep (pairOps O) w x call = (x.1, callStep O w x.2 call) := by
  cases call with
  | update force => rfl
  | read op => cases op <;> rfl

theorem pair_only {O : DbOps ω σ α} {w : ω} {I : σ → Prop} {S : Bytes → Prop} (h : OnlyFinds O w I S) :
    OnlyFinds (pairOps O) w (fun x => I x.2) S :=
  ⟨fun x call hx => by rw [pair_call]; exact h.keep _ call hx, fun x sha hs hx e => h.hit x.2 sha hs hx e⟩

theorem sum_only {τ : Type} {O : DbOps ω σ α} {P : DbOps ω τ α} {w : ω} {I : σ → Prop} {J : τ → Prop} {S : Bytes → Prop}
    (h : OnlyFinds O w I S) (h' : OnlyFinds P w J S) : OnlyFinds (sumOps O P) w (Sum.elim I J) S := by
  constructor
  · rintro (s | s) call hs
    · have := h.keep s call hs
      cases call with
      | update force => exact this
      | read op => cases op <;> exact this
    · have := h'.keep s call hs
      cases call with
      | update force => exact this
      | read op => cases op <;> exact this
  · rintro (s | s) sha hsha hs e
    · exact h.hit s sha hsha hs e
    · exact h'.hit s sha hsha hs e

/-! ## The databases of a repository -/

section
variable (H : Disk → Prop) (p : Text)

/-- The file was there with these contents. -/
def FileWas (r : Text) (name c : Bytes) : Prop := ∃ D d, H D ∧ D.pack r = some d ∧ d.get name = some c

/-- States of the databases at the ends. -/
def LeafOnly : GitLeaf → Prop
  | .stop => True
  | .pack r db => Referred H p r ∧ PackedFits (FileWas H r) db
  | .loose r db => Referred H p r ∧ ∀ sha, binToHex sha ∈ db.known → ∃ D, H D ∧ LooseThere D r sha

/-- States of a `ReferenceDB`. -/
def RefOnly (I : σ → Prop) (r : RefNode σ) : Prop :=
  Referred H p r.root ∧ (∀ l, r.db.dbs = some l → (l.map Prod.fst).Nodup ∧ ∀ y ∈ l, I y.2) ∧ CacheOnly (WasThere H p) r.db.cache

/-- States of a `GitDB`. -/
def NodeOnly : (n : Nat) → GitNode n → Prop
  | 0, _ => True
  | n + 1, t => Referred H p (GitState.root t) ∧
      (∀ l, GitState.dbs t = some l → ∀ x ∈ l, Sum.elim (LeafOnly H p) (RefOnly H p (NodeOnly n)) x) ∧
      CacheOnly (WasThere H p) (GitState.cache t)
end

variable {H : Disk → Prop} {p : Text}

theorem looseThere_of {D : Disk} {r : Text} {sha : Bytes} (h : ((D.looseAt r).1 (objectPath (binToHex sha))).isSome = true) :
    LooseThere D r sha := by
  unfold Disk.looseAt at h
  rcases hy : D.loose r with _ | x
  · rw [hy] at h; simp at h
  · rw [hy] at h
    exact ⟨x, hy, h⟩

theorem scanItems_only {Q : Bytes → Bytes → Prop} {dir : PackDir} (hq : ∀ p c, dir.get p = some c → Q p c) {sha : Bytes} (hs : sha ≠ []) :
    ∀ (l : List PackItem) (o : PackItem × Nat), (∀ it ∈ l, ItemFits Q it) → (scanItems dir sha l).2 = .ok (some o) →
      ∃ pack c, Q (idxName pack) c ∧ NamedIn c sha
  | [], _, _, e => by cases e
  | a :: l, o, h, e => by
    have h1 := h a (by simp)
    unfold scanItems at e
    rcases hf : a.find dir sha with ⟨a', e' | (_ | i)⟩
    · rw [hf] at e; cases e
    · rw [hf] at e
      exact scanItems_only hq hs l o (fun it hit => h it (by simp [hit])) e
    · have hidx : ∃ c x, Q (idxName a.path) c ∧ IndexFile.load c = .ok x ∧ x.shaToIndex sha = .ok (some i) := by
        unfold PackItem.find PackItem.index at hf
        rw [if_neg hs] at hf
        rcases hi : a.idx with _ | c
        · rw [hi] at hf
          simp only at hf
          rcases hg : dir.get (idxName a.path) with _ | c
          · rw [hg] at hf; simp at hf
          · rw [hg] at hf
            simp only at hf
            rcases hx : IndexFile.load c with e' | x
            · rw [hx] at hf; simp at hf
            · rw [hx] at hf
              simp only [Prod.mk.injEq] at hf
              exact ⟨c, x, hq _ _ hg, hx, hf.2⟩
        · rw [hi] at hf
          simp only at hf
          rcases hx : IndexFile.load c with e' | x
          · rw [hx] at hf; simp at hf
          · rw [hx] at hf
            simp only [Prod.mk.injEq] at hf
            exact ⟨c, x, h1.1 c hi, hx, hf.2⟩
      obtain ⟨c, x, h2, h3, h4⟩ := hidx
      obtain ⟨r, h5, h6⟩ := C53_no_false_hit c x h3 sha hs
      rw [h4] at h5
      cases h5
      exact ⟨a.path, c, h2, x.version, i, h6 i rfl⟩

theorem leaf_only (fuel : Nat) {order : List Bytes → List Bytes} (ho : ∀ l, (order l).Perm l) (getL : Fs → Bytes → Res OStream)
    (zl : Zlib) {D : Disk} (hD : H D) (hw : ∀ q d, D.pack q = some d → d.Wf) :
    OnlyFinds (leafOps order (fun d db sha => db.stream fuel order d sha) getL) D (LeafOnly H p) (WasThere H p) := by
  have hq : ∀ r nm c, (dirFiles (D.pack r)).get nm = some c → FileWas H r nm c := by
    intro r nm c hc
    rcases hx : D.pack r with _ | d
    · rw [hx] at hc
      simp [dirFiles, PackDir.get] at hc
    · rw [hx] at hc
      exact ⟨D, d, hD, hx, hc⟩
  constructor
  · intro s call h
    cases s with
    | stop => cases call with
      | read op => cases op <;> trivial
      | update force => trivial
    | pack r db =>
      cases call with
      | update force => exact ⟨h.1, update_fits ho (hw r) (hq r) h.2 force⟩
      | read op =>
        have := step_fits (Q := FileWas H r) zl ho (hw r) (hq r) h.2 fuel op
        cases op <;> exact ⟨h.1, this⟩
    | loose r db =>
      cases call with
      | update force => exact h
      | read op =>
        cases op with
        | has sha =>
          refine ⟨h.1, ?_⟩
          show ∀ x, binToHex x ∈ (db.hasObject (D.looseAt r).1 sha).1.known → ∃ D, H D ∧ LooseThere D r x
          unfold LooseDB.hasObject LooseDB.readablePath
          by_cases h1 : binToHex sha ∈ db.known
          · simp only [h1, if_true]; exact h.2
          · by_cases h2 : ((D.looseAt r).1 (objectPath (binToHex sha))).isSome = true
            · simp only [h1, h2, if_false, if_true]
              intro x hx
              simp only [List.mem_cons] at hx
              rcases hx with hx | hx
              · refine ⟨D, hD, looseThere_of ?_⟩
                rw [hx]; exact h2
              · exact h.2 x hx
            · simp only [h1, h2, if_false]; exact h.2
        | get sha => exact h
        | size => exact h
        | shas => exact h
  · intro s sha hs h e
    cases s with
    | stop => cases e
    | pack r db =>
      obtain ⟨hr, hf⟩ := h
      have e : (db.hasObject order (D.pack r) sha).2 = .ok true := e
      have h1 := load_fits ho (hw r) (hq r) hf
      obtain ⟨l, e1, e2⟩ := load_entities order (D.pack r) db
      unfold PackedDB.hasObject PackedDB.packInfo at e
      rcases hl : db.load order (D.pack r) with ⟨db1, e' | l1⟩
      · rw [hl] at e
        cases e' <;> cases e
      · rw [hl] at e h1 e1 e2
        obtain rfl := e2 l1 rfl
        simp only at e
        have hss : ∀ it ∈ (if db1.hitCount % sortInterval = 0 then sortItems l1 else l1), ItemFits (FileWas H r) it := by
          split
          · intro it hit
            exact h1.2 l1 e1 it ((sortItems_perm _).mem_iff.mp hit)
          · exact h1.2 l1 e1
        have h2 := fun o => scanItems_only (hq r) hs _ o hss
        rcases hx : scanItems (dirFiles (D.pack r)) sha (if db1.hitCount % sortInterval = 0 then sortItems l1 else l1)
          with ⟨l2, e' | (_ | o)⟩
        · rw [hx] at e
          cases e' <;> cases e
        · rw [hx] at e
          cases e
        · rw [hx] at h2
          obtain ⟨pack, c, ⟨D', d, k1, k2, k3⟩, k4⟩ := h2 o rfl
          exact ⟨r, D', hr, k1, .inr ⟨d, pack, c, k2, k3, k4⟩⟩
    | loose r db =>
      have e : Except.ok (ε := Err) (db.hasObject (D.looseAt r).1 sha).2 = .ok true := e
      unfold LooseDB.hasObject LooseDB.readablePath at e
      by_cases h1 : binToHex sha ∈ db.known
      · obtain ⟨D', k1, k2⟩ := h.2 sha h1
        exact ⟨r, D', h.1, k1, .inl k2⟩
      · by_cases h2 : ((D.looseAt r).1 (objectPath (binToHex sha))).isSome = true
        · exact ⟨r, D, h.1, hD, .inl (looseThere_of h2)⟩
        · simp [h1, h2] at e

theorem newParts_only (D : Disk) (I : σ → Prop) (q : Text) (hq : Referred H p q) :
    ∀ x ∈ newParts D q, Sum.elim (LeafOnly H p) (RefOnly H p I) x := by
  intro x hx
  obtain ⟨b, -, rfl⟩ := List.mem_map.mp hx
  cases b with
  | pack => exact ⟨hq, fun l hl => (nomatch hl), fun l hl => (nomatch hl)⟩
  | loose => exact ⟨hq, fun sha h => by cases h⟩
  | ref =>
    exact ⟨hq, fun l hl => (nomatch (hl : (none : Option (Refs σ)) = some l)),
      fun sha i _ e => (nomatch (e : (none : Option Nat) = some i))⟩

theorem gitLoad_only (D : Disk) {n : Nat} {t : GitState (GitNode n)} (h : NodeOnly H p (n + 1) t) :
    NodeOnly H p (n + 1) (t.load D).1 ∧ ∀ l, (t.load D).2 = .ok l → (t.load D).1.dbs = some l := by
  unfold GitState.load
  rcases hl : t.dbs with _ | l
  · have hn : ∀ t' : GitState (GitNode n), t'.root = t.root → t'.dbs = some (newParts D t.root) → t'.cache = t.cache →
        NodeOnly H p (n + 1) t' := by
      intro t' h1 h2 h3
      refine ⟨?_, fun l hl => ?_, ?_⟩
      · show Referred H p t'.root
        rw [h1]; exact h.1
      · have hl : t'.dbs = some l := hl
        rw [h2] at hl
        cases hl
        exact newParts_only D _ _ h.1
      · show CacheOnly (WasThere H p) t'.cache
        rw [h3]; exact h.2.2
    simp only
    rcases (gitDbs D t.root).2 with e | u
    · exact ⟨hn _ rfl rfl rfl, fun l h => by cases h⟩
    · exact ⟨hn _ rfl rfl rfl, fun l h => by cases h; rfl⟩
  · exact ⟨h, fun l' h' => by cases h'; exact hl⟩

theorem newNode_only (D : Disk) : ∀ (n : Nat) (q : Text) (t : GitNode n), newNode n D q = some t →
    (D.loose q).isSome = true ∧ (Referred H p q → NodeOnly H p n t)
  | 0, q, t, h => by
    refine ⟨(C47_valid D q).mp ?_, fun _ => trivial⟩
    have h : (mkGit D q).map (fun _ => q) = some t := h
    rcases hm : mkGit D q with _ | g
    · rw [hm] at h; cases h
    · rfl
  | n + 1, q, t, h => by
    simp only [newNode] at h
    rcases hl : GitState.load D ({ root := q } : GitState (GitNode n)) with ⟨g, e | l⟩
    · rw [hl] at h; cases h
    · rw [hl] at h
      cases h
      constructor
      · unfold GitState.load at hl
        simp only at hl
        rcases hg : (gitDbs D q).2 with e | u
        · rw [hg] at hl; cases hl
        · unfold gitDbs at hg
          simp only at hg
          generalize ((if (D.pack q).isSome = true then [Sub.pack] else []) ++ (if (D.loose q).isSome = true then [.loose] else []) ++
            (if (D.alt q).isSome = true then [.ref] else [])) = L at hg
          split at hg
          · cases hg
          · split at hg
            · cases hg
            · next h2 => rw [Option.isSome_iff_ne_none]; simpa using h2
      · intro hq
        have h0 : NodeOnly H p (n + 1) ({ root := q } : GitState (GitNode n)) :=
          ⟨hq, fun l hl => (nomatch (hl : (none : Option (List (GitLeaf ⊕ RefNode (GitNode n)))) = some l)), fun sha i _ e => by cases e⟩
        have h1 := (gitLoad_only D h0).1
        rw [hl] at h1
        exact h1

/-- The databases of a `ReferenceDB` in good order. -/
def RefsOnly (I : σ → Prop) (l : Refs σ) : Prop := (l.map Prod.fst).Nodup ∧ ∀ y ∈ l, I y.2

theorem updateRefs_only {order : List Text → List Text} (ho : ∀ l, (order l).Perm l) {I : σ → Prop} {mk : Text → Option σ} (file : Res Text)
    (hm : ∀ paths q t, refPaths file = .ok paths → q ∈ paths → mk q = some t → I t) {l : Refs σ}
    (h : RefsOnly I l) : RefsOnly I (updateRefs order mk file l).1 := by
  refine ⟨updateRefs_nodup ho mk file l h.1, ?_⟩
  rcases hp : refPaths file with e | paths
  · unfold updateRefs
    rw [hp]
    exact h.2
  · rw [updateRefs_spec ho mk file paths hp l h.1]
    intro y hy
    rcases List.mem_append.mp hy with hy | hy
    · exact h.2 y (List.mem_filter.mp hy).1
    · obtain ⟨q, hq', hq⟩ := List.mem_filterMap.mp hy
      rcases ht : mk q with _ | t
      · rw [ht] at hq; cases hq
      · rw [ht] at hq
        cases hq
        exact hm paths q t hp (by
          have := (List.mem_filter.mp hq').1
          exact (mem_firsts paths [] q).mp this |>.1) ht

theorem refLoad_only {order : List Text → List Text} (ho : ∀ l, (order l).Perm l) {I : σ → Prop} {mk : Text → Option σ} (file : Res Text)
    (hm : ∀ paths q t, refPaths file = .ok paths → q ∈ paths → mk q = some t → I t) {db : RefDB σ}
    (h : ∀ l, db.dbs = some l → RefsOnly I l) :
    (∀ l, (db.load order mk file).1.dbs = some l → RefsOnly I l) ∧
      (∀ l, (db.load order mk file).2 = .ok l → (db.load order mk file).1.dbs = some l) ∧
      (db.load order mk file).1.cache = db.cache := by
  unfold RefDB.load
  rcases hl : db.dbs with _ | l
  · have := updateRefs_only ho file hm (l := []) ⟨by simp, by simp⟩
    simp only
    rcases hu : updateRefs order mk file [] with ⟨l, e | u⟩
    · rw [hu] at this
      exact ⟨fun l' h' => by cases h'; exact this, fun l' h' => (nomatch h'), rfl⟩
    · rw [hu] at this
      refine ⟨fun l' h' => by cases h'; exact this, fun l' h' => ?_, rfl⟩
      cases h'; rfl
  · refine ⟨fun l' h' => h l' h', fun l' h' => ?_, rfl⟩
    cases h'; exact hl

theorem refUse_only {D : Disk} {order : List Text → List Text} (ho : ∀ l, (order l).Perm l) {I : σ → Prop} {mk : Disk → Text → Option σ}
    {r : RefNode σ} (hm : ∀ paths q t, refPaths (D.altFile r.root) = .ok paths → q ∈ paths → mk D q = some t → I t)
    (f : Compound (Text × σ) → Compound (Text × σ) × Res β) (T : Res β → Prop) (hT : ∀ e, T (.error e))
    (hf : ∀ c, RefsOnly I c.dbs → CacheOnly (WasThere H p) c.cache →
      RefsOnly I (f c).1.dbs ∧ CacheOnly (WasThere H p) (f c).1.cache ∧ T (f c).2)
    (h : RefOnly H p I r) : RefOnly H p I (r.use order mk D f).1 ∧ T (r.use order mk D f).2 := by
  obtain ⟨h1, h2, h3⟩ := refLoad_only ho (D.altFile r.root) hm h.2.1
  unfold RefNode.use
  rcases hl : r.db.load order (mk D) (D.altFile r.root) with ⟨db, e | l⟩
  · rw [hl] at h1 h3
    simp only at h3
    exact ⟨⟨h.1, h1, by rw [h3]; exact h.2.2⟩, hT e⟩
  · rw [hl] at h1 h2 h3
    simp only at h3
    obtain ⟨k1, k2, k3⟩ := hf { dbs := l, cache := db.cache } (h1 l (h2 l rfl)) (by rw [h3]; exact h.2.2)
    exact ⟨⟨h.1, fun l' hl' => by cases hl'; exact k1, k2⟩, k3⟩

theorem pairs_only {O : DbOps Disk σ α} {D : Disk} {I : σ → Prop} (hO : OnlyFinds O D I (WasThere H p)) (c : Compound (Text × σ))
    (call : LiveCall) (h : RefsOnly I c.dbs) (hc : CacheOnly (WasThere H p) c.cache) :
    RefsOnly I (callStep (compoundOps (pairOps O)) D c call).dbs ∧
      CacheOnly (WasThere H p) (callStep (compoundOps (pairOps O)) D c call).cache := by
  have h1 := (compound_inv (O := pairOps O) (w := D) (g := Prod.fst) (I := fun y => I y.2) (fun x call hx => by
      rw [pair_call]; exact ⟨rfl, hO.keep _ call hx⟩) c call h.2).1
  have h2 := (compound_only (pair_only hO)).keep c call ⟨h.2, hc⟩
  exact ⟨⟨by rw [h1]; exact h.1, h2.1⟩, h2.2⟩

theorem ref_only {O : DbOps Disk σ α} {D : Disk} {order : List Text → List Text} (ho : ∀ l, (order l).Perm l) {I : σ → Prop}
    {mk : Disk → Text → Option σ} (hD : H D)
    (hm : ∀ q t, mk D q = some t → (D.loose q).isSome = true ∧ (Referred H p q → I t))
    (hO : OnlyFinds O D I (WasThere H p)) : OnlyFinds (refOps order mk O) D (RefOnly H p I) (WasThere H p) := by
  have hm' : ∀ r : Text, Referred H p r → ∀ paths q t, refPaths (D.altFile r) = .ok paths → q ∈ paths → mk D q = some t → I t := by
    intro r hr paths q t hp hq ht
    obtain ⟨k1, k2⟩ := hm q t ht
    refine k2 (.step hr hD ?_)
    unfold Disk.altFile at hp
    rcases ha : D.alt r with _ | f
    · rw [ha] at hp
      simp only [Option.getD_none, refPaths, Except.ok.injEq] at hp
      subst hp; cases hq
    · rw [ha] at hp
      simp only [Option.getD_some] at hp
      rcases f with e | x
      · unfold refPaths at hp
        cases e <;> simp only [Except.ok.injEq, reduceCtorEq] at hp <;> subst hp <;> cases hq
      · exact ⟨x, paths, ha, (C47_file x paths).mp hp, hq, k1⟩
  constructor
  · intro r call h
    have hf := fun c call h hc => pairs_only (H := H) (p := p) hO c call h hc
    cases call with
    | read op =>
      cases op with
      | has sha => exact (refUse_only ho (hm' _ h.1) _ (fun _ => True) (fun _ => trivial) (fun c h1 h2 =>
          ⟨(hf c (.read (.has sha)) h1 h2).1, (hf c (.read (.has sha)) h1 h2).2, trivial⟩) h).1
      | get sha => exact (refUse_only ho (hm' _ h.1) _ (fun _ => True) (fun _ => trivial) (fun c h1 h2 =>
          ⟨(hf c (.read (.get sha)) h1 h2).1, (hf c (.read (.get sha)) h1 h2).2, trivial⟩) h).1
      | size => exact (refUse_only ho (hm' _ h.1) _ (fun _ => True) (fun _ => trivial) (fun c h1 h2 =>
          ⟨(hf c (.read .size) h1 h2).1, (hf c (.read .size) h1 h2).2, trivial⟩) h).1
      | shas => exact (refUse_only ho (hm' _ h.1) _ (fun _ => True) (fun _ => trivial) (fun c h1 h2 =>
          ⟨(hf c (.read .shas) h1 h2).1, (hf c (.read .shas) h1 h2).2, trivial⟩) h).1
    | update force =>
      have hr : (∀ l, (r.db.refresh order (mk D) (D.altFile r.root)).1.dbs = some l → RefsOnly I l) ∧
          CacheOnly (WasThere H p) (r.db.refresh order (mk D) (D.altFile r.root)).1.cache := by
        obtain ⟨h1, h2, h3⟩ := refLoad_only ho (D.altFile r.root) (hm' _ h.1) h.2.1
        unfold RefDB.refresh
        rcases hp : refPaths (D.altFile r.root) with e | paths
        · exact h.2
        · simp only
          rcases hl : r.db.load order (mk D) (D.altFile r.root) with ⟨db, e | l⟩
          · rw [hl] at h1 h3
            simp only at h3
            exact ⟨h1, by rw [h3]; exact h.2.2⟩
          · rw [hl] at h1 h2 h3
            simp only at h3
            have hu := updateRefs_only ho (D.altFile r.root) (hm' _ h.1) (h1 l (h2 l rfl))
            simp only
            rcases hx : updateRefs order (mk D) (D.altFile r.root) l with ⟨l', e | u⟩
            · rw [hx] at hu
              exact ⟨fun l'' h'' => by cases h''; exact hu, by rw [h3]; exact h.2.2⟩
            · rw [hx] at hu
              exact ⟨fun l'' h'' => by cases h''; exact hu, fun sha i _ e => by cases e⟩
      show RefOnly H p I ((refOps order mk O).update D r force).1
      simp only [refOps]
      rcases hx : r.db.refresh order (mk D) (D.altFile r.root) with ⟨db, e | u⟩
      · rw [hx] at hr; exact ⟨h.1, hr⟩
      · rw [hx] at hr
        exact (refUse_only (r := { r with db := db }) ho (hm' _ h.1) _ (fun _ => True) (fun _ => trivial) (fun c h1 h2 =>
          ⟨(hf c (.update force) h1 h2).1, (hf c (.update force) h1 h2).2, trivial⟩) ⟨h.1, hr⟩).1
  · intro r sha hs h e
    have h1 := (refUse_only ho (hm' _ h.1) (fun c => c.has (pairOps O) D sha) (fun x => x = .ok true → WasThere H p sha)
      (fun _ e => (nomatch e)) (fun c h1 h2 =>
        ⟨(pairs_only hO c (.read (.has sha)) h1 h2).1, (pairs_only hO c (.read (.has sha)) h1 h2).2,
          fun e => (compound_only (pair_only hO)).hit c sha hs ⟨h1.2, h2⟩ e⟩) h).2
    exact h1 e

theorem stateUse_only {D : Disk} {n : Nat} (f : Compound (GitLeaf ⊕ RefNode (GitNode n)) → Compound (GitLeaf ⊕ RefNode (GitNode n)) × Res β)
    (T : Res β → Prop) (hT : ∀ e, T (.error e))
    (hf : ∀ c, CompoundOnly (Sum.elim (LeafOnly H p) (RefOnly H p (NodeOnly H p n))) (WasThere H p) c →
      CompoundOnly (Sum.elim (LeafOnly H p) (RefOnly H p (NodeOnly H p n))) (WasThere H p) (f c).1 ∧ T (f c).2)
    {t : GitState (GitNode n)} (h : NodeOnly H p (n + 1) t) : NodeOnly H p (n + 1) (t.use D f).1 ∧ T (t.use D f).2 := by
  obtain ⟨h1, h2⟩ := gitLoad_only D h
  unfold GitState.use
  rcases hl : t.load D with ⟨g, e | l⟩
  · rw [hl] at h1; exact ⟨h1, hT e⟩
  · rw [hl] at h1 h2
    obtain ⟨h5, h6⟩ := hf { dbs := l, cache := g.cache } ⟨h1.2.1 l (h2 l rfl), h1.2.2⟩
    exact ⟨⟨h1.1, fun l' hl' => by cases hl'; exact h5.1, h5.2⟩, h6⟩

theorem live_only {orderT : List Text → List Text} (hoT : ∀ l, (orderT l).Perm l) {L : DbOps Disk GitLeaf α} {D : Disk} (hD : H D)
    (hL : OnlyFinds L D (LeafOnly H p) (WasThere H p)) :
    ∀ n : Nat, OnlyFinds (liveOps orderT L n) D (NodeOnly H p n) (WasThere H p) ∧
      ∀ t sha x, sha ≠ [] → NodeOnly H p n t → ((liveOps orderT L n).get D t sha).2 = .ok x → WasThere H p sha
  | 0 => ⟨⟨fun _ _ _ => trivial, fun _ _ _ _ e => (nomatch e)⟩, fun _ _ _ _ _ e => (nomatch e)⟩
  | n + 1 => by
    have ih := (live_only hoT hD hL n).1
    have hs := sum_only hL (ref_only hoT hD (newNode_only D n) ih)
    have hc := compound_only hs
    refine ⟨⟨?_, ?_⟩, ?_⟩
    · intro t call h
      have hf := fun c call h => hc.keep c call h
      cases call with
      | update force => exact (stateUse_only _ (fun _ => True) (fun _ => trivial) (fun c h => ⟨hf c (.update force) h, trivial⟩) h).1
      | read op =>
        cases op with
        | has sha => exact (stateUse_only _ (fun _ => True) (fun _ => trivial) (fun c h => ⟨hf c (.read (.has sha)) h, trivial⟩) h).1
        | get sha => exact (stateUse_only _ (fun _ => True) (fun _ => trivial) (fun c h => ⟨hf c (.read (.get sha)) h, trivial⟩) h).1
        | size => exact (stateUse_only _ (fun _ => True) (fun _ => trivial) (fun c h => ⟨hf c (.read .size) h, trivial⟩) h).1
        | shas => exact (stateUse_only _ (fun _ => True) (fun _ => trivial) (fun c h => ⟨hf c (.read .shas) h, trivial⟩) h).1
    · intro t sha hne h e
      exact (stateUse_only (D := D) (fun c => c.has (sumOps L (refOps orderT (newNode n) (liveOps orderT L n))) D sha)
        (fun x => x = .ok true → WasThere H p sha) (fun _ e => (nomatch e))
        (fun c h => ⟨hc.keep c (.read (.has sha)) h, fun e => hc.hit c sha hne h e⟩) h).2 e
    · intro t sha x hne h e
      exact (stateUse_only (D := D) (fun c => c.get (sumOps L (refOps orderT (newNode n) (liveOps orderT L n))) D sha)
        (fun y => y = .ok x → WasThere H p sha) (fun _ e => (nomatch e))
        (fun c h => ⟨hc.keep c (.read (.get sha)) h, fun e => compound_get_only hs c h sha hne x e⟩) h).2 e

/-- The disks of a history, and the one now. -/
def SomeTime (past : List (Disk × LiveCall)) (D : Disk) (D' : Disk) : Prop := D' = D ∨ ∃ e ∈ past, e.1 = D'

/-- **C93** a `GitDB`, used in any way while the disk changes in any way (files damaged, missing, replaced; packs, alternates and whole
repositories coming and going; exceptions that are caught): what `has_object` and `stream` find was there at some time - as a loose
object, or as a name in an index file - in a repository that was referred to at some time. -/
theorem C93_never_invented (zl : Zlib) (fuel : Nat) {order : List Bytes → List Bytes} (ho : ∀ l, (order l).Perm l)
    {orderT : List Text → List Text} (hoT : ∀ l, (orderT l).Perm l) (getL : Fs → Bytes → Res OStream) (n : Nat) (p : Text)
    (past : List (Disk × LiveCall)) (D : Disk) (hw : ∀ D', SomeTime past D D' → ∀ q d, D'.pack q = some d → d.Wf)
    (sha : Bytes) (hne : sha ≠ []) :
    let O := liveOps orderT (leafOps order (fun d db sha => db.stream fuel order d sha) getL) n
    let t := past.foldl (fun t e => callStep O e.1 t e.2) (freshNode n p)
    ((O.has D t sha).2 = .ok true → WasThere (SomeTime past D) p sha) ∧
    ∀ o, (O.get D t sha).2 = .ok o → WasThere (SomeTime past D) p sha := by
  intro O t
  have hO := fun D' (h : SomeTime past D D') => live_only (p := p) hoT h (leaf_only (p := p) fuel ho getL zl h (hw D' h)) n
  have h0 : NodeOnly (SomeTime past D) p n (freshNode n p) := by
    cases n with
    | zero => trivial
    | succ n =>
      exact ⟨.self, fun l hl => (nomatch (hl : (none : Option (List (GitLeaf ⊕ RefNode (GitNode n)))) = some l)), fun sha i _ e => by cases e⟩
  have ht : ∀ (l : List (Disk × LiveCall)) (s : GitNode n), (∀ e ∈ l, e ∈ past) → NodeOnly (SomeTime past D) p n s →
      NodeOnly (SomeTime past D) p n (l.foldl (fun t e => callStep O e.1 t e.2) s) := by
    intro l
    induction l with
    | nil => intro s _ h; exact h
    | cons e l ih =>
      intro s hl h
      exact ih _ (fun e he => hl e (by simp [he])) ((hO e.1 (.inr ⟨e, hl e (by simp), rfl⟩)).1.keep s e.2 h)
  have htt := ht past _ (fun _ h => h) h0
  exact ⟨(hO D (.inl rfl)).1.hit t sha hne htt, fun o => (hO D (.inl rfl)).2 t sha o hne htt⟩

/-! ## Exceptions of `has_object` -/

/-- What `has_object` may raise. -/
def hasErrors : List Err := [.fileNotFound, .structError, .parseError, .assertionError, .unicodeError, .invalidDBRoot, .diverge]

theorem addPacks_raises (dir : PackDir) : ∀ (ps : List Bytes) (items : List PackItem), Raises (addPacks dir ps items).2 hasErrors
  | [], _ => raises_ok _
  | p :: ps, items => by
    unfold addPacks
    rcases dir.get p with _ | c
    · exact raises_error (by simp [hasErrors])
    · simp only
      rcases h : PackFile.load c with e | pk
      · exact (C92_open c).2.of h (by simp [hasErrors])
      · exact addPacks_raises dir ps _

theorem packLoad_raises (order : List Bytes → List Bytes) (dir : Option PackDir) (db : PackedDB) : Raises (db.load order dir).2 hasErrors := by
  unfold PackedDB.load
  rcases db.entities with _ | l
  · rcases dir with _ | d
    · exact raises_error (by simp [hasErrors])
    · simp only [refreshItems]
      have h := addPacks_raises d (order (d.packs.filter fun f => decide (f ∉ ([] : List PackItem).map PackItem.path))) []
      rcases hx : addPacks d (order (d.packs.filter fun f => decide (f ∉ ([] : List PackItem).map PackItem.path))) [] with ⟨l, e | u⟩
      · rw [hx] at h; exact fun e' he' => h e' (by simpa using he')
      · exact raises_ok _
  · exact raises_ok _

theorem index_raises (dir : PackDir) (a : PackItem) : Raises (a.index dir).2 hasErrors := by
  unfold PackItem.index
  rcases a.idx with _ | c
  · simp only
    rcases dir.get (idxName a.path) with _ | c
    · exact raises_error (by simp [hasErrors])
    · exact (C92_open c).1.mono (by simp [hasErrors])
  · exact (C92_open c).1.mono (by simp [hasErrors])

theorem scanItems_raises (dir : PackDir) {sha : Bytes} (hs : sha ≠ []) : ∀ l : List PackItem, Raises (scanItems dir sha l).2 hasErrors
  | [] => raises_ok _
  | a :: l => by
    have hf : Raises (a.find dir sha).2 hasErrors := by
      have h1 := index_raises dir a
      unfold PackItem.find
      rw [if_neg hs]
      rcases h : a.index dir with ⟨a', e | x⟩
      · rw [h] at h1
        exact fun e' he' => h1 e' (by simpa using he')
      · exact (shaToIndex_raises_nothing x sha hs).mono (by simp)
    unfold scanItems
    rcases hx : a.find dir sha with ⟨a', e | (_ | i)⟩
    · rw [hx] at hf; exact fun e' he' => hf e' (by simpa using he')
    · exact scanItems_raises dir hs l
    · exact raises_ok _

theorem packInfo_raises (order : List Bytes → List Bytes) (dir : Option PackDir) (db : PackedDB) {sha : Bytes} (hs : sha ≠ []) :
    Raises (db.packInfo order dir sha).2 (.badObject :: hasErrors) := by
  unfold PackedDB.packInfo
  have h1 := packLoad_raises order dir db
  rcases hl : db.load order dir with ⟨db1, e | l⟩
  · rw [hl] at h1
    exact fun e' he' => List.mem_cons_of_mem _ (h1 e' (by simpa using he'))
  · simp only
    have h2 := scanItems_raises (dirFiles dir) hs (if db1.hitCount % sortInterval = 0 then sortItems l else l)
    rcases hx : scanItems (dirFiles dir) sha (if db1.hitCount % sortInterval = 0 then sortItems l else l) with ⟨l2, e | (_ | o)⟩
    · rw [hx] at h2
      exact fun e' he' => List.mem_cons_of_mem _ (h2 e' (by simpa using he'))
    · exact raises_error (by simp)
    · exact raises_ok _

theorem packHas_raises (order : List Bytes → List Bytes) (dir : Option PackDir) (db : PackedDB) {sha : Bytes} (hs : sha ≠ []) :
    Raises (db.hasObject order dir sha).2 hasErrors := by
  have h := packInfo_raises order dir db hs
  unfold PackedDB.hasObject
  rcases hx : db.packInfo order dir sha with ⟨db1, e | o⟩
  · rw [hx] at h
    have := h e rfl
    cases e <;> first | exact raises_ok _ | exact raises_error (by decide) | exact absurd this (by decide)
  · exact raises_ok _

/-- `has_object` raises only these, in any state. -/
def HasRaises (O : DbOps ω σ α) (w : ω) (S : List Err) : Prop := ∀ s sha, sha ≠ [] → Raises (O.has w s sha).2 S

theorem query_raises {O : DbOps ω σ α} {w : ω} {S : List Err} (h : HasRaises O w S) (c : Compound σ) (sha : Bytes) (hs : sha ≠ []) :
    Raises (c.query O w sha).2 (.badObject :: S) := by
  have hscan : ∀ (l : List σ) (k : Nat), Raises (scanDbs O w sha l k).2 S := by
    intro l
    induction l with
    | nil => intro k; exact raises_ok _
    | cons s l ih =>
      intro k
      have h1 := h s sha hs
      unfold scanDbs
      rcases hh : O.has w s sha with ⟨s', e | (_ | _)⟩
      · rw [hh] at h1
        exact fun e' he' => h1 e' (by simpa using he')
      · exact ih (k + 1)
      · exact raises_ok _
  unfold Compound.query
  rcases nameGet sha c.cache with _ | i
  · simp only
    have h1 := hscan c.dbs 0
    rcases hx : scanDbs O w sha c.dbs 0 with ⟨l, e | (_ | i)⟩
    · rw [hx] at h1
      exact fun e' he' => List.mem_cons_of_mem _ (h1 e' (by simpa using he'))
    · exact raises_error (by simp)
    · exact raises_ok _
  · exact raises_ok _

theorem compound_raises {O : DbOps ω σ α} {w : ω} {S : List Err} (h : HasRaises O w S) : HasRaises (compoundOps O) w S := by
  intro c sha hs
  have hq := query_raises h c sha hs
  show Raises (c.has O w sha).2 S
  unfold Compound.has
  rcases hx : c.query O w sha with ⟨c', e | i⟩
  · rw [hx] at hq
    have := hq e rfl
    cases e <;> first | exact raises_ok _ | exact raises_error (by simpa using this)
  · exact raises_ok _

theorem refLoad_raises {D : Disk} (order : List Text → List Text) (mk : Disk → Text → Option σ)
    (hr : ∀ q e, D.alt q = some (.error e) → e ∈ [Err.osError, .fileNotFound, .permissionError, .unicodeError])
    (ho : order [] = []) (r : RefNode σ) : Raises (r.db.load order (mk D) (D.altFile r.root)).2 hasErrors := by
  unfold RefDB.load
  rcases r.db.dbs with _ | l
  · simp only
    have hp : Raises (refPaths (D.altFile r.root)) hasErrors := by
      unfold Disk.altFile
      rcases ha : D.alt r.root with _ | (e | t)
      · exact raises_ok _
      · have := hr _ e ha
        simp only [List.mem_cons, List.not_mem_nil, or_false] at this
        rcases this with rfl | rfl | rfl | rfl
        · exact raises_ok _
        · exact raises_ok _
        · exact raises_ok _
        · exact raises_error (by simp [hasErrors])
      · exact raises_ok _
    have hu : Raises (updateRefs order (mk D) (D.altFile r.root) []).2 hasErrors := by
      unfold updateRefs
      rcases hx : refPaths (D.altFile r.root) with e | paths
      · exact hp.of hx (fun _ h => h)
      · simp only [List.map_nil, List.filter_nil, firsts, ho, removePaths]
        exact raises_ok _
    rcases hx : updateRefs order (mk D) (D.altFile r.root) [] with ⟨l, e | u⟩
    · rw [hx] at hu
      exact fun e' he' => hu e' (by simpa using he')
    · exact raises_ok _
  · exact raises_ok _

theorem ref_raises {O : DbOps Disk σ α} {D : Disk} (order : List Text → List Text) (mk : Disk → Text → Option σ)
    (hr : ∀ q e, D.alt q = some (.error e) → e ∈ [Err.osError, .fileNotFound, .permissionError, .unicodeError])
    (h : HasRaises O D hasErrors) (ho : order [] = []) : HasRaises (refOps order mk O) D hasErrors := by
  intro r sha hs
  have hl := refLoad_raises order mk hr ho r
  show Raises (r.use order mk D (fun c => c.has (pairOps O) D sha)).2 hasErrors
  unfold RefNode.use
  rcases hx : r.db.load order (mk D) (D.altFile r.root) with ⟨db, e | l⟩
  · rw [hx] at hl
    exact fun e' he' => hl e' (by simpa using he')
  · exact compound_raises (O := pairOps O) (fun s sha hs => h s.2 sha hs) _ sha hs

theorem gitLoad_raises (D : Disk) (t : GitState σ) : Raises (t.load D).2 hasErrors := by
  unfold GitState.load
  rcases t.dbs with _ | l
  · simp only
    have hg : Raises (gitDbs D t.root).2 hasErrors := by
      unfold gitDbs
      simp only
      generalize ((if (D.pack t.root).isSome = true then [Sub.pack] else []) ++
        (if (D.loose t.root).isSome = true then [.loose] else []) ++
        (if (D.alt t.root).isSome = true then [.ref] else [])) = L
      split
      · exact raises_error (by simp [hasErrors])
      · split
        · exact raises_error (by simp [hasErrors])
        · exact raises_ok _
    rcases hx : (gitDbs D t.root).2 with e | u
    · exact hg.of hx (fun _ h => h)
    · exact raises_ok _
  · exact raises_ok _

/-- **C93** `has_object` of a `GitDB` in any state - after any history, also with exceptions - on any disk: the only exceptions.
It never raises `BadObject`. -/
theorem C93_has_raises (order : List Bytes → List Bytes) {orderT : List Text → List Text} (ho : orderT [] = [])
    (getP : Option PackDir → PackedDB → Bytes → PackedDB × Res α) (getL : Fs → Bytes → Res α) {D : Disk}
    (hr : ∀ q e, D.alt q = some (.error e) → e ∈ [Err.osError, .fileNotFound, .permissionError, .unicodeError]) :
    ∀ (n : Nat) (t : GitNode n) (sha : Bytes), sha ≠ [] →
      Raises ((liveOps orderT (leafOps order getP getL) n).has D t sha).2
        [.fileNotFound, .structError, .parseError, .assertionError, .unicodeError, .invalidDBRoot, .diverge]
  | 0, _, _, _ => raises_error (by simp)
  | n + 1, t, sha, hs => by
    have hL : HasRaises (leafOps order getP getL) D hasErrors := by
      intro s sha hs
      cases s with
      | stop => exact raises_error (by simp [hasErrors])
      | pack r db => exact packHas_raises order (D.pack r) db hs
      | loose r db => exact raises_ok _
    have hR := ref_raises orderT (newNode n) hr (C93_has_raises order ho getP getL hr n) ho
    have hc : HasRaises (compoundOps (sumOps (leafOps order getP getL) (refOps orderT (newNode n) (liveOps orderT (leafOps order getP getL) n))))
        D hasErrors := compound_raises (by
      rintro (s | s) sha hs
      · exact hL s sha hs
      · exact hR s sha hs)
    show Raises (GitState.use D _ t).2 hasErrors
    have hl := gitLoad_raises D t
    unfold GitState.use
    rcases hx : GitState.load D t with ⟨g, e | l⟩
    · rw [hx] at hl
      exact fun e' he' => hl e' (by simpa using he')
    · exact hc _ sha hs

/-! ## Examples -/

/-- An index with these contents next to a pack without objects. -/
def oddDir (index : Bytes) : PackDir := ⟨5, [(nameA, [0x50, 0x41, 0x43, 0x4b, 0, 0, 0, 2, 0, 0, 0, 0]), (idxName nameA, index)]⟩

theorem oddDir_wf (index : Bytes) : (oddDir index).Wf := by
  show ((oddDir index).files.map Prod.fst).Nodup
  simp only [oddDir, List.map_cons, List.map_nil]
  decide

/-- The object `[7]` of `/b` is found, and found again when neither the alternate nor the pack directory is there any more. -/
example (getL : Fs → Bytes → Res OStream) :
    let O := liveOps id (leafOps id (fun d db sha => db.stream 5 id d sha) getL) 2
    let t := callStep O (liveDisk ⟨1, []⟩ (rootB ++ ['\n'])) (freshNode 2 rootA) (.read (.has [7]))
    (O.has bareDisk t [7]).2 = .ok true ∧ (O.has bareDisk (freshNode 2 rootA) [7]).2 = .ok false := by
  intro O t
  exact ⟨rfl, rfl⟩

/-- However the bytes of an index are damaged, an object is not found if its first byte is nowhere in the index, and it has no file. -/
example (zl : Zlib) (getL : Fs → Bytes → Res OStream) (calls : List (Bytes × LiveCall)) (hc : ∀ e ∈ calls, (9 : UInt8) ∉ e.1)
    (index : Bytes) (hi : (9 : UInt8) ∉ index) (rest : Bytes) :
    let O := liveOps id (leafOps id (fun d db sha => db.stream 5 id d sha) getL) 2
    let t := (calls.map fun e => (liveDisk (oddDir e.1) [], e.2)).foldl (fun t e => callStep O e.1 t e.2) (freshNode 2 rootA)
    (O.has (liveDisk (oddDir index) []) t (9 :: rest)).2 ≠ .ok true := by
  intro O t e
  have hall : ∀ D', SomeTime (calls.map fun e => (liveDisk (oddDir e.1) [], e.2)) (liveDisk (oddDir index) []) D' →
      ∃ c, (9 : UInt8) ∉ c ∧ D' = liveDisk (oddDir c) [] := by
    rintro D' (rfl | ⟨e, he, rfl⟩)
    · exact ⟨index, hi, rfl⟩
    · obtain ⟨x, hx, rfl⟩ := List.mem_map.mp he
      exact ⟨x.1, hc x hx, rfl⟩
  have hw : ∀ D', SomeTime (calls.map fun e => (liveDisk (oddDir e.1) [], e.2)) (liveDisk (oddDir index) []) D' →
      ∀ q d, D'.pack q = some d → ∃ c, (9 : UInt8) ∉ c ∧ d = oddDir c := by
    intro D' h q d hd
    obtain ⟨c, k1, rfl⟩ := hall D' h
    simp only [liveDisk] at hd
    split at hd
    · cases hd; exact ⟨c, k1, rfl⟩
    · cases hd
  obtain ⟨q, D', hq, hD, h⟩ := (C93_never_invented zl 5 (order := id) (fun l => .refl l) (orderT := id) (fun l => .refl l) getL 2 rootA
    (calls.map fun e => (liveDisk (oddDir e.1) [], e.2)) (liveDisk (oddDir index) [])
    (fun D' h q d hd => by obtain ⟨c, -, rfl⟩ := hw D' h q d hd; exact oddDir_wf c) (9 :: rest) (by simp)).1 e
  have hroot : q = rootA := by
    induction hq with
    | self => rfl
    | step hq hD' h' ih =>
      obtain ⟨x, paths, k1, k2, k3, -⟩ := h'
      obtain ⟨c, -, rfl⟩ := hall _ hD'
      simp only [liveDisk] at k1
      split at k1
      · cases k1
        have := (C47_file [] paths).mpr k2
        cases this
        cases k3
      · cases k1
  subst hroot
  rcases h with ⟨x, hx, hh⟩ | ⟨d, pack, c, k1, k2, v, i, k3⟩
  · obtain ⟨c, -, rfl⟩ := hall D' hD
    cases hx
    cases hh
  · obtain ⟨c', k4, rfl⟩ := hw D' hD _ d k1
    have hmem : (9 : UInt8) ∈ c := by
      have : (9 : UInt8) ∈ (c.drop (namePos v i)).take 20 := by rw [k3]; simp
      exact List.mem_of_mem_drop (List.mem_of_mem_take this)
    simp only [PackDir.get, oddDir, List.find?_cons, List.find?_nil] at k2
    split at k2
    · cases k2
      revert hmem; decide
    · split at k2
      · cases k2; exact k4 hmem
      · cases k2

/-- All of these exceptions: index too short, index missing, empty pack, pack with another signature, index of version 3, alternates that are
not UTF-8, no repository, a repository that is its own alternate. -/
example (getL : Fs → Bytes → Res OStream) :
    let O := liveOps id (leafOps id (fun d db sha => db.stream 5 id d sha) getL) 2
    (O.has (liveDisk (oddDir [0xff, 0x74, 0x4f, 0x63]) []) (freshNode 2 rootA) [7]).2 = .error .structError ∧
    (O.has (liveDisk ⟨5, (oddDir []).files.take 1⟩ []) (freshNode 2 rootA) [7]).2 = .error .fileNotFound ∧
    (O.has (liveDisk ⟨5, [(nameA, [])]⟩ []) (freshNode 2 rootA) [7]).2 = .error .structError ∧
    (O.has (liveDisk ⟨5, [(nameA, List.replicate 12 0)]⟩ []) (freshNode 2 rootA) [7]).2 = .error .parseError ∧
    (O.has (liveDisk (oddDir [0xff, 0x74, 0x4f, 0x63, 0, 0, 0, 3]) []) (freshNode 2 rootA) [7]).2 = .error .assertionError ∧
    (O.has { liveDisk ⟨5, []⟩ [] with alt := fun _ => some (.error .unicodeError) } (freshNode 2 rootA) [7]).2 = .error .unicodeError ∧
    (O.has bareDisk (freshNode 2 ['x']) [7]).2 = .error .invalidDBRoot ∧
    (O.has (liveDisk ⟨5, []⟩ (rootA ++ ['\n'])) (freshNode 2 rootA) [7]).2 = .error .diverge := by
  intro O
  exact ⟨rfl, rfl, rfl, rfl, rfl, rfl, rfl, rfl⟩

end GitDB.Props
