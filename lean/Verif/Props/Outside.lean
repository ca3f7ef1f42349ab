import Verif.Model.Outside
import Verif.Props.Raises
/-!
# C102: offsets outside of the pack
-/
set_option autoImplicit false

namespace GitDB.Props
open GitDB Spec

variable {zl : Zlib} {out : Outside}

theorem header_outside {pack : Bytes} {off : Nat} (h : pack.length ≤ off) : packObjectHeaderInfo (pack.drop off) = .error .indexError := by
  rw [List.drop_eq_nil_of_le h]; rfl

theorem regionAt_inside {pack : Bytes} {off : Nat} (asked : List Int) (h : off < pack.length) :
    regionAt out pack asked (off : Int) = .ok (pack.drop off) := by
  unfold regionAt
  rw [if_pos ⟨by omega, by omega⟩, Int.toNat_natCast]

theorem packObjectX_same (pack : Bytes) (asked : List Int) (off : Nat) (h : packObjectAt pack off ≠ .error .indexError) :
    packObjectX out pack asked off = ((off : Int) :: asked, packObjectAt pack off) := by
  by_cases hl : off < pack.length
  · unfold packObjectX
    rw [regionAt_inside asked hl, Int.toNat_natCast]
    rfl
  · exact absurd (by unfold packObjectAt; dsimp only; rw [header_outside (by omega)]) h

theorem collectX_same (p : PackFile) : ∀ (fuel : Nat) (asked : List Int) (off : Nat), p.collectStreams fuel off ≠ .error .indexError →
    (p.collectStreamsX out fuel asked off).2 = p.collectStreams fuel off := by
  intro fuel
  induction fuel with
  | zero => intro asked off _; rfl
  | succ fuel ih =>
    intro asked off h
    have h1 : packObjectAt p.data off ≠ .error .indexError := fun k => h (by unfold PackFile.collectStreams; rw [k])
    unfold PackFile.collectStreams at h ⊢
    unfold PackFile.collectStreamsX
    rw [packObjectX_same p.data asked off h1]
    rcases ho : packObjectAt p.data off with e | o
    · rfl
    · rw [ho] at h
      have hoff : o.packOffset = off := by
        unfold packObjectAt at ho
        dsimp only at ho
        repeat' split at ho
        all_goals first | cases ho; rfl | cases ho
      dsimp only at h ⊢
      rcases hi : o.info with _ | d | s
      · rfl
      · rw [hi] at h
        dsimp only at h ⊢
        by_cases hd : o.packOffset < d
        · exact absurd (if_pos hd) h
        · rw [if_neg hd] at h ⊢
          have h2 : p.collectStreams fuel (o.packOffset - d) ≠ .error .indexError := fun k => h (by rw [k])
          have h3 := ih ((off : Int) :: asked) (o.packOffset - d) h2
          rw [show ((o.packOffset - d : Nat) : Int) = (off : Int) - d by omega] at h3
          rcases hx : p.collectStreamsX out fuel ((off : Int) :: asked) ((off : Int) - d) with ⟨a, e | l⟩
          · rw [hx] at h3; rw [← h3]
          · rw [hx] at h3; rw [← h3]
      · rfl

theorem streamX_same (p : PackFile) (asked : List Int) (off : Nat) (h : p.stream off ≠ .error .indexError) :
    ∃ a, p.streamX out asked off = (a, p.stream off) := ⟨_, packObjectX_same _ _ _ h⟩

theorem resolveX_same (p : PackEntity) : ∀ (fuel : Nat) (asked : List Int) (o : PackObj), p.resolveRefs fuel o ≠ .error .indexError →
    (p.resolveRefsX out fuel asked o).2 = p.resolveRefs fuel o := by
  intro fuel
  induction fuel with
  | zero => intro asked o _; rfl
  | succ fuel ih =>
    intro asked o h
    have key : ∀ (ofs : Nat), (match p.pack.stream ofs with
          | .error e => .error e
          | .ok o' =>
            match p.resolveRefs fuel o' with
            | .error e => .error e
            | .ok l => .ok (o' :: l) : Res (List PackObj)) ≠ .error .indexError →
        (match p.pack.streamX out asked ofs with
          | (asked, .error e) => (asked, .error e)
          | (asked, .ok o') =>
            match p.resolveRefsX out fuel asked o' with
            | (asked, .error e) => (asked, .error e)
            | (asked, .ok l) => (asked, .ok (o' :: l)) : List Int × Res (List PackObj)).2 =
        (match p.pack.stream ofs with
          | .error e => .error e
          | .ok o' =>
            match p.resolveRefs fuel o' with
            | .error e => .error e
            | .ok l => .ok (o' :: l) : Res (List PackObj)) := by
      intro ofs h
      obtain ⟨a, ha⟩ := streamX_same (out := out) p.pack asked ofs fun k => h (by rw [k])
      rw [ha]
      rcases hs : p.pack.stream ofs with e | o'
      · rfl
      · rw [hs] at h
        dsimp only at h ⊢
        have h3 := ih a o' fun k => h (by rw [k])
        rw [← h3]
        rcases p.resolveRefsX out fuel a o' with ⟨a2, e | l⟩ <;> rfl
    unfold PackEntity.resolveRefs at h ⊢
    unfold PackEntity.resolveRefsX
    generalize o.info = zz at h ⊢
    rcases zz with _ | d | s
    · rfl
    · exact key d h
    · dsimp only at h ⊢
      generalize p.index.shaToIndex s = zz at h ⊢
      rcases zz with e | _ | i
      · rfl
      · rfl
      · dsimp only at h ⊢
        generalize p.index.offset i = zz at h ⊢
        rcases zz with e | ofs
        · rfl
        · exact key ofs h

theorem collectAtX_same (p : PackEntity) (fuel : Nat) (asked : List Int) (off : Nat)
    (h : p.collectStreamsAtOffset fuel off ≠ .error .indexError) :
    (p.collectStreamsAtOffsetX out fuel asked off).2 = p.collectStreamsAtOffset fuel off := by
  unfold PackEntity.collectStreamsAtOffset at h ⊢
  unfold PackEntity.collectStreamsAtOffsetX
  have h1 := collectX_same (out := out) p.pack fuel asked off fun k => h (by rw [k])
  rcases hx : p.pack.collectStreamsX out fuel asked off with ⟨a, e | l⟩
  · rw [hx] at h1; rw [← h1]
  · rw [hx] at h1
    rw [← h1] at h ⊢
    dsimp only at h ⊢
    generalize l.getLast? = zz at h ⊢
    rcases zz with _ | last
    · rfl
    · dsimp only at h ⊢
      by_cases hr : last.typeId = REF_DELTA
      · rw [if_pos hr] at h ⊢
        rw [if_pos hr]
        have h2 := resolveX_same (out := out) p fuel a last fun k => h (by rw [k])
        rw [← h2]
        rcases p.resolveRefsX out fuel a last with ⟨a2, e | l2⟩ <;> rfl
      · rw [if_neg hr, if_neg hr]

/-- **C102** `stream(sha)`: unless it is `IndexError` in the model where nothing is outside of the file, the result is the same whatever
happens for offsets outside of the file. -/
theorem C102_stream (p : PackEntity) (fuel : Nat) (asked : List Int) (sha : Bytes) (h : p.stream fuel sha ≠ .error .indexError) :
    (p.streamX out fuel asked sha).2 = p.stream fuel sha := by
  unfold PackEntity.stream at h ⊢
  unfold PackEntity.streamX
  generalize p.shaToIndex sha = zz at h ⊢
  rcases zz with e | i
  · rfl
  · dsimp only at h ⊢
    unfold PackEntity.streamAt at h ⊢
    unfold PackEntity.streamAtX
    generalize p.index.offset i = zz at h ⊢
    rcases zz with e | ofs
    · rfl
    · dsimp only at h ⊢
      by_cases hl : ofs < p.pack.data.length
      · rw [regionAt_inside asked hl]
        dsimp only
        generalize packObjectHeaderInfo (p.pack.data.drop ofs) = zz at h ⊢
        rcases zz with e | ⟨t, n, k⟩
        · rfl
        · dsimp only at h ⊢
          by_cases ht : t ≠ OFS_DELTA ∧ t ≠ REF_DELTA
          · rw [if_pos ht] at h ⊢
            rw [if_pos ht]
            obtain ⟨a, ha⟩ := streamX_same (out := out) p.pack ((ofs : Int) :: asked) ofs fun k => h (by rw [k])
            rw [ha]
            generalize p.pack.stream ofs = zz at h ⊢
            rcases zz with e | o
            · rfl
            · dsimp only
              rcases typeIdToType o.typeId with e | t <;> rfl
          · rw [if_neg ht] at h ⊢
            rw [if_neg ht]
            have h2 := collectAtX_same (out := out) p fuel ((ofs : Int) :: asked) ofs fun k => h (by rw [k])
            rw [← h2]
            rcases p.collectStreamsAtOffsetX out fuel ((ofs : Int) :: asked) ofs with ⟨a, e | l⟩
            · rfl
            · dsimp only
              rcases deltaNew l with e | ⟨t, s⟩ <;> rfl
      · rw [header_outside (by omega)] at h
        exact absurd rfl h

/-- **C102** `info(sha)`. -/
theorem C102_info (p : PackEntity) (fuel : Nat) (asked : List Int) (sha : Bytes) (h : p.info zl fuel sha ≠ .error .indexError) :
    (p.infoX out zl fuel asked sha).2 = p.info zl fuel sha := by
  unfold PackEntity.info at h ⊢
  unfold PackEntity.infoX
  generalize p.shaToIndex sha = zz at h ⊢
  rcases zz with e | i
  · rfl
  · dsimp only at h ⊢
    unfold PackEntity.infoAt at h ⊢
    unfold PackEntity.infoAtX
    generalize p.index.offset i = zz at h ⊢
    rcases zz with e | ofs
    · rfl
    · dsimp only at h ⊢
      by_cases hl : ofs < p.pack.data.length
      · rw [regionAt_inside asked hl]
        dsimp only
        generalize packObjectHeaderInfo (p.pack.data.drop ofs) = zz at h ⊢
        rcases zz with e | ⟨t, n, k⟩
        · rfl
        · dsimp only at h ⊢
          by_cases ht : t ≠ OFS_DELTA ∧ t ≠ REF_DELTA
          · rw [if_pos ht, if_pos ht]
            rcases typeIdToType t with e | t <;> rfl
          · rw [if_neg ht] at h ⊢
            rw [if_neg ht]
            have h2 := collectAtX_same (out := out) p fuel ((ofs : Int) :: asked) ofs fun k => h (by rw [k])
            rw [← h2]
            rcases p.collectStreamsAtOffsetX out fuel ((ofs : Int) :: asked) ofs with ⟨a, e | l⟩ <;> rfl
      · rw [header_outside (by omega)] at h
        exact absurd rfl h

/-- **C102** iteration over the objects of a pack. -/
theorem C102_iter (p : PackFile) (inner : Nat) : ∀ (fuel : Nat) (asked : List Int) (cur : Int),
    (p.iterObjects zl inner fuel cur).2 ≠ .error .indexError →
    p.iterObjectsX out zl inner fuel asked cur = p.iterObjects zl inner fuel cur := by
  intro fuel
  induction fuel with
  | zero => intro asked cur _; rfl
  | succ fuel ih =>
    intro asked cur h
    unfold PackFile.iterObjects at h ⊢
    unfold PackFile.iterObjectsX
    by_cases hc : cur < (p.data.length : Int) - 20
    · rw [if_pos hc] at h ⊢
      rw [if_pos hc]
      by_cases h0 : cur < 0
      · rw [if_pos h0] at h; exact absurd rfl h
      · rw [if_neg h0] at h ⊢
        obtain ⟨n, rfl⟩ : ∃ n : Nat, cur = n := ⟨cur.toNat, by omega⟩
        rw [Int.toNat_natCast] at h ⊢
        rw [packObjectX_same p.data asked n fun k => h (by rw [k])]
        generalize packObjectAt p.data n = zz at h ⊢
        rcases zz with e | o
        · rfl
        · dsimp only at h ⊢
          generalize streamCopy inner (Reader.read zl) nullWrite o.size chunkSize o.stream () = zz at h ⊢
          rcases zz with ⟨r, u, e | k⟩
          · rfl
          · dsimp only at h ⊢
            by_cases hb : r.br ≠ o.size
            · rw [if_pos hb, if_pos hb]
            · rw [if_neg hb] at h ⊢
              rw [if_neg hb]
              generalize r.compressedBytesRead zl inner = zz at h ⊢
              rcases zz with ⟨r2, e | c⟩
              · rfl
              · dsimp only at h ⊢
                generalize r2.seek 0 0 = zz at h ⊢
                rcases zz with ⟨r3, e | _⟩
                · rfl
                · dsimp only at h ⊢
                  rw [ih _ _ h]
    · rw [if_neg hc, if_neg hc]


/-! ## What is raised -/

theorem packObjectFrom_good (data : Bytes) (o : Nat) :
    Raises (packObjectFrom data o) [.indexError] ∧ ∀ x, packObjectFrom data o = .ok x → FromPack x := by
  unfold packObjectFrom
  rcases h : packObjectHeaderInfo data with e | ⟨t, n, i⟩
  · exact ⟨(packObjectHeaderInfo_raises _).of h (by simp), fun _ k => nomatch k⟩
  · have ht := packObjectHeaderInfo_type h
    dsimp only
    split
    · rcases h' : ofsDecode data i with e | ⟨d, j⟩
      · exact ⟨(ofsDecode_raises _ _).of h' (by simp), fun _ k => nomatch k⟩
      · exact ⟨raises_ok _, fun x k => by cases k; exact ⟨ht, sane_ofSize _ _⟩⟩
    · split
      · exact ⟨raises_ok _, fun x k => by cases k; exact ⟨ht, sane_ofSize _ _⟩⟩
      · exact ⟨raises_ok _, fun x k => by cases k; exact ⟨ht, sane_ofSize _ _⟩⟩

theorem regionAt_raises {E : List Err} (hE : ∀ a, Raises (out a) E) (pack : Bytes) (asked : List Int) (o : Int) :
    Raises (regionAt out pack asked o) E := by
  unfold regionAt
  split
  · exact raises_ok _
  · exact hE _

theorem packObjectX_good {E : List Err} (hE : ∀ a, Raises (out a) E) (pack : Bytes) (asked : List Int) (o : Int) :
    Raises (packObjectX out pack asked o).2 (.indexError :: E) ∧ ∀ x, (packObjectX out pack asked o).2 = .ok x → FromPack x := by
  unfold packObjectX
  dsimp only
  rcases h : regionAt out pack asked o with e | d
  · exact ⟨(regionAt_raises hE _ _ _).of h (by simp +contextual), fun _ k => nomatch k⟩
  · exact ⟨(packObjectFrom_good d _).1.mono (by simp), (packObjectFrom_good d _).2⟩

theorem collectX_good {E : List Err} (hE : ∀ a, Raises (out a) E) (p : PackFile) : ∀ (fuel : Nat) (asked : List Int) (o : Int),
    Raises (p.collectStreamsX out fuel asked o).2 (.indexError :: .diverge :: E) ∧
    ∀ l, (p.collectStreamsX out fuel asked o).2 = .ok l → ∀ x ∈ l, FromPack x := by
  intro fuel
  induction fuel with
  | zero => exact fun _ _ => ⟨raises_error (by simp), fun _ k => nomatch k⟩
  | succ fuel ih =>
    intro asked o
    unfold PackFile.collectStreamsX
    have hp := packObjectX_good hE p.data asked o
    generalize packObjectX out p.data asked o = zz at hp ⊢
    rcases zz with ⟨a, e | x⟩
    · exact ⟨hp.1.of rfl (by simp +contextual), fun _ k => nomatch k⟩
    · have hx := hp.2 x rfl
      have h1 : ∀ l : List PackObj, (Except.ok [x] : Res (List PackObj)) = .ok l → ∀ x ∈ l, FromPack x := fun l k => by
        cases k; intro y hy; rw [List.mem_singleton.1 hy]; exact hx
      dsimp only
      rcases x.info with _ | d | s
      · exact ⟨raises_ok _, h1⟩
      · dsimp only
        have h2 := ih a (o - d)
        generalize p.collectStreamsX out fuel a (o - d) = zz at h2 ⊢
        rcases zz with ⟨a2, e | l⟩
        · exact ⟨h2.1.of rfl (by simp +contextual), fun _ k => nomatch k⟩
        · refine ⟨raises_ok _, fun l' k => ?_⟩
          cases k
          intro y hy
          rcases List.mem_cons.1 hy with rfl | hy
          · exact hx
          · exact h2.2 l rfl y hy
      · exact ⟨raises_ok _, h1⟩

theorem resolveX_good {E : List Err} (hE : ∀ a, Raises (out a) E) (p : PackEntity) : ∀ (fuel : Nat) (asked : List Int) (o : PackObj),
    Raises (p.resolveRefsX out fuel asked o).2 (.indexError :: .structError :: .diverge :: E) ∧
    ∀ l, (p.resolveRefsX out fuel asked o).2 = .ok l → ∀ x ∈ l, FromPack x := by
  intro fuel
  induction fuel with
  | zero => exact fun _ _ => ⟨raises_error (by simp), fun _ k => nomatch k⟩
  | succ fuel ih =>
    intro asked o
    have h0 : ∀ l : List PackObj, (Except.ok [] : Res (List PackObj)) = .ok l → ∀ x ∈ l, FromPack x := fun l k => by
      cases k; simp
    have key : ∀ (ofs : Nat) (r : List Int × Res (List PackObj)), r = (match p.pack.streamX out asked ofs with
          | (asked, .error e) => (asked, .error e)
          | (asked, .ok o') =>
            match p.resolveRefsX out fuel asked o' with
            | (asked, .error e) => (asked, .error e)
            | (asked, .ok l) => (asked, .ok (o' :: l))) →
        Raises r.2 (.indexError :: .structError :: .diverge :: E) ∧ ∀ l, r.2 = .ok l → ∀ x ∈ l, FromPack x := by
      rintro ofs r rfl
      have hp : Raises (p.pack.streamX out asked ofs).2 (.indexError :: E) ∧
          ∀ x, (p.pack.streamX out asked ofs).2 = .ok x → FromPack x := packObjectX_good hE _ _ _
      generalize p.pack.streamX out asked ofs = zz at hp ⊢
      rcases zz with ⟨a, e | x⟩
      · exact ⟨hp.1.of rfl (by simp +contextual), fun _ k => nomatch k⟩
      · dsimp only
        have h2 := ih a x
        generalize p.resolveRefsX out fuel a x = zz at h2 ⊢
        rcases zz with ⟨a2, e | l⟩
        · exact ⟨h2.1.of rfl (by simp +contextual), fun _ k => nomatch k⟩
        · refine ⟨raises_ok _, fun l' k => ?_⟩
          cases k
          intro y hy
          rcases List.mem_cons.1 hy with rfl | hy
          · exact hp.2 _ rfl
          · exact h2.2 l rfl y hy
    unfold PackEntity.resolveRefsX
    rcases o.info with _ | d | s
    · exact ⟨raises_ok _, h0⟩
    · exact key d _ rfl
    · dsimp only
      rcases h : p.index.shaToIndex s with e | _ | i
      · exact ⟨(shaToIndex_raises _ _).of h (by simp), fun _ k => nomatch k⟩
      · exact ⟨raises_ok _, h0⟩
      · dsimp only
        rcases h1 : p.index.offset i with e | ofs
        · exact ⟨(offset_raises _ _).of h1 (by simp), fun _ k => nomatch k⟩
        · exact key ofs _ rfl

theorem collectAtX_good {E : List Err} (hE : ∀ a, Raises (out a) E) (p : PackEntity) (fuel : Nat) (asked : List Int) (o : Nat) :
    Raises (p.collectStreamsAtOffsetX out fuel asked o).2 (.indexError :: .structError :: .diverge :: E) ∧
    ∀ l, (p.collectStreamsAtOffsetX out fuel asked o).2 = .ok l → ∀ x ∈ l, FromPack x := by
  unfold PackEntity.collectStreamsAtOffsetX
  have h1 := collectX_good hE p.pack fuel asked o
  generalize p.pack.collectStreamsX out fuel asked o = zz at h1 ⊢
  rcases zz with ⟨a, e | l⟩
  · exact ⟨h1.1.of rfl (by simp +contextual), fun _ k => nomatch k⟩
  · dsimp only
    rcases l.getLast? with _ | last
    · exact ⟨raises_error (by simp), fun _ k => nomatch k⟩
    · dsimp only
      split
      · have h2 := resolveX_good hE p fuel a last
        generalize p.resolveRefsX out fuel a last = zz at h2 ⊢
        rcases zz with ⟨a2, e | l2⟩
        · exact ⟨h2.1.of rfl (by simp), fun _ k => nomatch k⟩
        · refine ⟨raises_ok _, fun l' k => ?_⟩
          cases k
          intro x hx
          rcases List.mem_append.1 hx with hx | hx
          · exact h1.2 l rfl x hx
          · exact h2.2 l2 rfl x hx
      · refine ⟨raises_ok _, fun l' k => ?_⟩
        cases k
        exact h1.2 l rfl

theorem streamX_good {E : List Err} (hE : ∀ a, Raises (out a) E) (p : PackEntity) (fuel : Nat) (asked : List Int) (sha : Bytes)
    (hs : sha ≠ []) :
    Raises (p.streamX out fuel asked sha).2 ([.badObject, .structError, .indexError, .valueError, .diverge] ++ E) ∧
    ∀ o, (p.streamX out fuel asked sha).2 = .ok o → o.stream.Made := by
  unfold PackEntity.streamX
  rcases h : p.shaToIndex sha with e | i
  · exact ⟨(entityIndex_raises p sha hs).of h (by simp), fun _ k => nomatch k⟩
  · dsimp only
    unfold PackEntity.streamAtX
    rcases h1 : p.index.offset i with e | ofs
    · exact ⟨(offset_raises _ _).of h1 (by simp), fun _ k => nomatch k⟩
    · dsimp only
      rcases h2 : regionAt out p.pack.data asked ofs with e | d
      · exact ⟨(regionAt_raises hE _ _ _).of h2 (by simp +contextual), fun _ k => nomatch k⟩
      · dsimp only
        rcases h3 : packObjectHeaderInfo d with e | ⟨t, n, j⟩
        · exact ⟨(packObjectHeaderInfo_raises _).of h3 (by simp), fun _ k => nomatch k⟩
        · dsimp only
          split
          · have hp : Raises (p.pack.streamX out ((ofs : Int) :: asked) ofs).2 (.indexError :: E) ∧
                ∀ x, (p.pack.streamX out ((ofs : Int) :: asked) ofs).2 = .ok x → FromPack x := packObjectX_good hE _ _ _
            generalize p.pack.streamX out ((ofs : Int) :: asked) ofs = zz at hp ⊢
            rcases zz with ⟨a, e | x⟩
            · exact ⟨hp.1.of rfl (by simp +contextual), fun _ k => nomatch k⟩
            · have hx := hp.2 x rfl
              obtain ⟨n, hn⟩ := typeIdToType_ok hx.1
              simp only [hn]
              refine ⟨raises_ok _, fun o k => ?_⟩
              cases k
              exact hx.2.1
          · have hc := collectAtX_good hE p fuel ((ofs : Int) :: asked) ofs
            generalize p.collectStreamsAtOffsetX out fuel ((ofs : Int) :: asked) ofs = zz at hc ⊢
            rcases zz with ⟨a, e | l⟩
            · exact ⟨hc.1.of rfl (by simp +contextual), fun _ k => nomatch k⟩
            · have hl := hc.2 l rfl
              dsimp only
              rcases h4 : deltaNew l with e | ⟨t, s⟩
              · exact ⟨(deltaNew_raises hl).of h4 (by simp), fun _ k => nomatch k⟩
              · refine ⟨raises_ok _, fun o k => ?_⟩
                cases k
                exact deltaNew_made hl h4

/-- **C102** whatever happens outside of the file: besides what C92 names, `stream(sha)` raises only what smmap raises. -/
theorem C102_raises {E : List Err} (hE : ∀ a, Raises (out a) E) (p : PackEntity) (fuel : Nat) (asked : List Int) (sha : Bytes)
    (hs : sha ≠ []) :
    Raises (p.streamX out fuel asked sha).2 ([.badObject, .structError, .indexError, .valueError, .diverge] ++ E) :=
  (streamX_good hE p fuel asked sha hs).1

/-- Every exception there is in the model. -/
def allErrs : List Err := [.indexError, .valueError, .assertionError, .typeError, .keyError, .attributeError, .structError, .unicodeError,
  .binasciiError, .overflowError, .osError, .fileNotFound, .permissionError, .zlibError, .badObject, .ambiguousObjectName,
  .unsupportedOperation, .parseError, .invalidDBRoot, .diverge]

theorem allErrs_all (e : Err) : e ∈ allErrs := by cases e <;> decide

/-- **C102** whatever happens outside of the file: reading a returned stream raises only what C92 names. -/
theorem C102_read (p : PackEntity) (f : Nat) (asked : List Int) (sha : Bytes) (hs : sha ≠ []) (o : OStream)
    (h : (p.streamX out f asked sha).2 = .ok o) (fuel : Nat) (hf : o.stream.Enough fuel) (ns : List Int) :
    Raises (readMany (PStream.read zl fuel) o.stream ns).2 [.zlibError, .indexError, .assertionError, .valueError] := by
  exact readMany_raises fuel ns o.stream ((streamX_good (E := allErrs) (fun a e _ => allErrs_all e) p f asked sha hs).2 o h) hf

/-- As if the region asked for before stayed in place: the pack of the examples, from the last offset inside of it. -/
def earlier (pack : Bytes) : Outside := fun asked =>
  match asked.find? fun o : Int => decide (0 ≤ o ∧ o < (pack.length : Int)) with
  | some o => .ok (pack.drop o.toNat)
  | none => .ok []

/-- **C102** an offset of the index at the end of the pack or behind it: `stream(sha)` asks smmap for it, and raises what smmap raises. -/
theorem C102_behind (p : PackEntity) (fuel : Nat) (asked : List Int) (sha : Bytes) (i ofs : Nat) (e : Err) (hi : p.shaToIndex sha = .ok i)
    (ho : p.index.offset i = .ok ofs) (hl : p.pack.data.length ≤ ofs) (he : out ((ofs : Int) :: asked) = .error e) :
    p.streamX out fuel asked sha = ((ofs : Int) :: asked, .error e) := by
  have h : regionAt out p.pack.data asked ofs = .error e := by
    unfold regionAt
    rw [if_neg (by omega)]
    exact he
  unfold PackEntity.streamX PackEntity.streamAtX
  simp only [hi, ho, h]

/-- **C102** the same for `info(sha)`. -/
theorem C102_behind_info (p : PackEntity) (fuel : Nat) (asked : List Int) (sha : Bytes) (i ofs : Nat) (e : Err)
    (hi : p.shaToIndex sha = .ok i) (ho : p.index.offset i = .ok ofs) (hl : p.pack.data.length ≤ ofs)
    (he : out ((ofs : Int) :: asked) = .error e) : p.infoX out zl fuel asked sha = ((ofs : Int) :: asked, .error e) := by
  have h : regionAt out p.pack.data asked ofs = .error e := by
    unfold regionAt
    rw [if_neg (by omega)]
    exact he
  unfold PackEntity.infoX PackEntity.infoAtX
  simp only [hi, ho, h]

/-- The hypotheses of `C102_behind` and `C102_behind_info`: the offset in the index is the length of the pack, and smmap raises
`OSError`. -/
example : ask (smallIdx (smallPack []).data.length) (smallPack []) (fun p =>
    .ok (decide (p.shaToIndex (List.replicate 20 0) = .ok 0 ∧ p.index.offset 0 = .ok p.pack.data.length))) = .ok true := by decide +kernel

/-- Inside of the pack nothing depends on what is outside; an offset behind the end of the pack is `IndexError`, another exception, or even
another object, depending on what smmap does. -/
example : ask (smallIdx 12) (smallPack []) (fun p => (p.streamX (fun _ => .error .osError) 9 [] (List.replicate 20 0)).2.map (·.type.text)) =
      .ok strBlobType ∧
    ask (smallIdx 15) (smallPack []) (fun p => (p.streamX (fun _ => .ok []) 9 [12] (List.replicate 20 0)).2.map (·.type.text)) =
      .error .indexError ∧
    ask (smallIdx 15) (smallPack []) (fun p => (p.streamX (fun _ => .error .osError) 9 [12] (List.replicate 20 0)).2.map (·.type.text)) =
      .error .osError ∧
    ask (smallIdx 15) (smallPack []) (fun p => (p.streamX (earlier (smallPack []).data) 9 [12] (List.replicate 20 0)).2.map (·.type.text)) =
      .ok strBlobType ∧
    ask (smallIdx 15) (smallPack []) (fun p => (p.streamX (earlier (smallPack []).data) 9 [] (List.replicate 20 0)).2.map (·.type.text)) =
      .error .indexError := by decide +kernel

/-- The same for `info`, and for a delta whose base would begin before the pack. -/
example : ask (smallIdx 15) (smallPack [0x64, 3, 1, 1, 1, 66, 255]) (fun p =>
      (p.infoX (fun _ => .error .osError) toyZlib 9 [] (List.replicate 20 0)).2.map (·.2)) = .ok 1 ∧
    ask (smallIdx 15) (smallPack [0x64, 16, 1, 1, 1, 66, 255]) (fun p =>
      (p.infoX (fun _ => .error .osError) toyZlib 9 [] (List.replicate 20 0)).2.map (·.2)) = .error .osError ∧
    ask (smallIdx 15) (smallPack [0x64, 16, 1, 1, 1, 66, 255]) (fun p =>
      (p.infoX (fun _ => .ok [0x31, 65, 255]) toyZlib 9 [] (List.replicate 20 0)).2.map (·.2)) = .ok 1 := by decide +kernel

end GitDB.Props
