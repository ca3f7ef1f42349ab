import Verif.Model.Pack
import Verif.Proofs.PackedDB
import Verif.Proofs.Stuck
/-!
# Which exceptions the functions reading a pack can raise
-/
set_option autoImplicit false

namespace GitDB

/-- Every exception the computation raises is in the list. -/
def Raises {α : Type} (r : Res α) (S : List Err) : Prop := ∀ e, r = .error e → e ∈ S

section
variable {α β σ : Type} {S T : List Err}

theorem raises_ok (a : α) : Raises (.ok a) S := fun _ h => nomatch h
theorem raises_error {e : Err} (h : e ∈ S) : Raises (α := α) (.error e) S := fun _ h' => by cases h'; exact h
theorem Raises.mono {r : Res α} (h : Raises r S) (hs : ∀ e ∈ S, e ∈ T) : Raises r T := fun e he => hs e (h e he)
theorem raises_bind {r : Res α} {f : α → Res β} (h : Raises r S) (hf : ∀ a, r = .ok a → Raises (f a) S) :
    Raises (r >>= f) S := by
  cases r with
  | error e => exact raises_error (h e rfl)
  | ok a => exact hf a rfl

/-- The two first cases of nearly every function of the model. -/
theorem Raises.of {r : Res α} (h : Raises r S) {e : Err} (he : r = .error e) (hs : ∀ e ∈ S, e ∈ T) :
    Raises (α := β) (.error e) T := raises_error (hs e (h e he))

/-- A `read` that raises only exceptions of the list and returns no more than asked for and no more than a bound, which
decreases accordingly. -/
def ReadRaises (I : σ → Nat → Prop) (read : σ → Int → σ × Res Bytes) (S : List Err) : Prop :=
  ∀ s k n, I s k → ∃ k', I (read s n).1 k' ∧ k' ≤ k ∧
    ((∃ d, (read s n).2 = .ok d ∧ d.length + k' ≤ k ∧ (1 ≤ n → (d.length : Int) ≤ n)) ∨ ∃ e ∈ S, (read s n).2 = .error e)
end

/-! ## Numbers -/

theorem unpackL_raises (m : Bytes) (n : Nat) : Raises (unpackL m n) [.structError] := by
  unfold unpackL; split
  · exact raises_ok _
  · exact raises_error (by simp)

theorem unpackQ_raises (m : Bytes) (n : Nat) : Raises (unpackQ m n) [.structError] := by
  unfold unpackQ; split
  · exact raises_ok _
  · exact raises_error (by simp)

theorem headerLoop_raises : ∀ (rest : Bytes) (c i size s : Nat), Raises (headerLoop rest c i size s) [.indexError]
  | [], c, i, size, s => by
    unfold headerLoop; split
    · exact raises_ok _
    · exact raises_error (by simp)
  | b :: rest, c, i, size, s => by
    unfold headerLoop; split
    · exact raises_ok _
    · exact headerLoop_raises rest _ _ _ _

theorem packObjectHeaderInfo_raises (d : Bytes) : Raises (packObjectHeaderInfo d) [.indexError] := by
  unfold packObjectHeaderInfo
  cases d with
  | nil => exact raises_error (by simp)
  | cons b rest =>
    dsimp only
    rcases h : headerLoop rest b.toNat 1 (b.toNat &&& 15) 4 with e | ⟨n, i⟩
    · exact (headerLoop_raises _ _ _ _ _).of h (by simp)
    · exact raises_ok _

theorem packObjectHeaderInfo_type {d : Bytes} {t n i : Nat} (h : packObjectHeaderInfo d = .ok (t, n, i)) : t < 8 := by
  unfold packObjectHeaderInfo at h
  cases d with
  | nil => cases h
  | cons b rest =>
    dsimp only at h
    rcases h' : headerLoop rest b.toNat 1 (b.toNat &&& 15) 4 with e | ⟨n, i⟩
    · rw [h'] at h; cases h
    · rw [h'] at h
      simp only [Except.ok.injEq, Prod.mk.injEq] at h
      rw [← h.1]
      exact Nat.lt_of_le_of_lt Nat.and_le_right (by decide)

theorem ofsLoop_raises : ∀ (rest : Bytes) (c i d : Nat), Raises (ofsLoop rest c i d) [.indexError]
  | [], c, i, d => by
    unfold ofsLoop; split
    · exact raises_ok _
    · exact raises_error (by simp)
  | b :: rest, c, i, d => by
    unfold ofsLoop; split
    · exact raises_ok _
    · exact ofsLoop_raises rest _ _ _

theorem ofsDecode_raises (d : Bytes) (i : Nat) : Raises (ofsDecode d i) [.indexError] := by
  unfold ofsDecode
  split
  · exact raises_error (by simp)
  · exact ofsLoop_raises _ _ _ _

theorem msbLoop_raises : ∀ (n : Nat) (rest : Bytes) (i size : Nat), Raises (msbLoop n rest i size) [.indexError, .assertionError]
  | 0, _, _, _ => raises_error (by simp)
  | _ + 1, [], _, _ => raises_error (by simp)
  | n + 1, b :: rest, i, size => by
    unfold msbLoop
    dsimp only
    split
    · exact raises_ok _
    · exact msbLoop_raises n rest _ _

theorem msbSize_raises (d : Bytes) (o : Nat) : Raises (msbSize d o) [.indexError, .assertionError] := by
  unfold msbSize
  rcases h : msbLoop d.length (d.drop o) 0 0 with e | ⟨i, s⟩
  · exact (msbLoop_raises _ _ _ _).of h (by simp)
  · exact raises_ok _

theorem typeIdToType_ok {t : Nat} (h : t < 8) : ∃ n, typeIdToType t = .ok n := by
  have : t = 0 ∨ t = 1 ∨ t = 2 ∨ t = 3 ∨ t = 4 ∨ t = 5 ∨ t = 6 ∨ t = 7 := by omega
  rcases this with rfl | rfl | rfl | rfl | rfl | rfl | rfl | rfl <;> exact ⟨_, rfl⟩

/-! ## Index -/

theorem offset_raises (x : IndexFile) (i : Nat) : Raises (x.offset i) [.structError] := by
  unfold IndexFile.offset
  split
  · rcases h : unpackL x.map (x.packOff + i * 4) with e | o
    · exact (unpackL_raises _ _).of h (by simp)
    · dsimp only
      split
      · exact unpackQ_raises _ _
      · exact raises_ok _
  · exact unpackL_raises _ _

theorem crc_raises (x : IndexFile) (i : Nat) : Raises (x.crc i) [.structError] := by
  unfold IndexFile.crc
  split
  · exact unpackL_raises _ _
  · exact raises_ok _

theorem shaToIndex_raises (x : IndexFile) (sha : Bytes) : Raises (x.shaToIndex sha) [.indexError] := by
  unfold IndexFile.shaToIndex
  split
  · exact raises_error (by simp)
  · exact raises_ok _

theorem shaToIndex_raises_nothing (x : IndexFile) (sha : Bytes) (h : sha ≠ []) : Raises (x.shaToIndex sha) [] := by
  unfold IndexFile.shaToIndex
  cases sha with
  | nil => exact absurd rfl h
  | cons b t => exact raises_ok _

theorem words32_raises : ∀ (b : Bytes), Raises (words32 b) [.valueError]
  | [] => raises_ok _
  | a :: b :: c :: d :: t => by
    unfold words32
    rcases h : words32 t with e | l
    · exact (words32_raises t).of h (by simp)
    · exact raises_ok _
  | [_] => raises_error (by simp)
  | [_, _] => raises_error (by simp)
  | [_, _, _] => raises_error (by simp)

theorem mapM_raises {α β : Type} {f : α → Res β} {S : List Err} : ∀ (l : List α), (∀ a ∈ l, Raises (f a) S) → Raises (l.mapM f) S
  | [], _ => raises_ok _
  | a :: l, h => by
    rw [List.mapM_cons]
    refine raises_bind (h a (by simp)) fun b _ => ?_
    exact raises_bind (mapM_raises l fun x hx => h x (by simp [hx])) fun _ _ => raises_ok _

theorem offsets_raises (x : IndexFile) : Raises x.offsets [.structError, .valueError] := by
  unfold IndexFile.offsets
  split
  · exact (words32_raises _).mono (by simp)
  · exact (mapM_raises _ fun i _ => offset_raises x i).mono (by simp)

/-! ## Entries -/

theorem packObjectAt_raises (pack : Bytes) (o : Nat) : Raises (packObjectAt pack o) [.indexError] := by
  unfold packObjectAt
  dsimp only
  rcases h : packObjectHeaderInfo (pack.drop o) with e | ⟨t, n, i⟩
  · exact (packObjectHeaderInfo_raises _).of h (by simp)
  · dsimp only
    split
    · rcases h' : ofsDecode (pack.drop o) i with e | ⟨d, j⟩
      · exact (ofsDecode_raises _ _).of h' (by simp)
      · exact raises_ok _
    · split <;> exact raises_ok _

/-- A stream over the map as `pack_object_at` creates it. -/
def Sane (r : Reader) : Prop := r.hasS = true ∧ r.br ≤ r.s ∧ r.buf = none

/-- What is true of every object read from a pack. -/
def FromPack (o : PackObj) : Prop := o.typeId < 8 ∧ Sane o.stream ∧ o.stream.s - o.stream.br ≤ o.size

theorem sane_ofSize (m : Bytes) (n : Nat) : Sane (Reader.ofSize m n) ∧ (Reader.ofSize m n).s - (Reader.ofSize m n).br ≤ n :=
  ⟨⟨rfl, Int.natCast_nonneg n, rfl⟩, by simp [Reader.ofSize]⟩

theorem packObjectAt_entry {pack : Bytes} {o : Nat} {x : PackObj} (h : packObjectAt pack o = .ok x) : FromPack x := by
  unfold packObjectAt at h
  dsimp only at h
  rcases h1 : packObjectHeaderInfo (pack.drop o) with e | ⟨t, n, i⟩
  · rw [h1] at h; cases h
  · rw [h1] at h
    have ht := packObjectHeaderInfo_type h1
    dsimp only at h
    split at h
    · rcases h' : ofsDecode (pack.drop o) i with e | ⟨d, j⟩
      · rw [h'] at h; cases h
      · rw [h'] at h; cases h; exact ⟨ht, sane_ofSize _ _⟩
    · split at h <;> · cases h; exact ⟨ht, sane_ofSize _ _⟩

theorem pstream_raises (p : PackFile) (o : Nat) : Raises (p.stream o) [.indexError] := packObjectAt_raises _ _

theorem collectStreams_raises (p : PackFile) : ∀ (fuel o : Nat), Raises (p.collectStreams fuel o) [.indexError, .diverge]
  | 0, _ => raises_error (by simp)
  | fuel + 1, o => by
    unfold PackFile.collectStreams
    rcases h : packObjectAt p.data o with e | x
    · exact (packObjectAt_raises _ _).of h (by simp)
    · dsimp only
      split
      · split
        · exact raises_error (by simp)
        · rename_i d _ _
          rcases h' : p.collectStreams fuel (x.packOffset - d) with e | l
          · exact (collectStreams_raises p fuel _).of h' (by simp)
          · exact raises_ok _
      · exact raises_ok _

theorem collectStreams_entries (p : PackFile) : ∀ (fuel o : Nat) (l : List PackObj), p.collectStreams fuel o = .ok l → ∀ x ∈ l, FromPack x
  | 0, _, _, h => nomatch h
  | fuel + 1, o, l, h => by
    unfold PackFile.collectStreams at h
    rcases h1 : packObjectAt p.data o with e | x
    · rw [h1] at h; cases h
    · rw [h1] at h
      have hx := packObjectAt_entry h1
      dsimp only at h
      split at h
      · split at h
        · cases h
        · rename_i d _ _
          rcases h' : p.collectStreams fuel (x.packOffset - d) with e | l'
          · rw [h'] at h; cases h
          · rw [h'] at h; cases h
            have := collectStreams_entries p fuel _ l' h'
            intro y hy
            rcases List.mem_cons.1 hy with rfl | hy
            · exact hx
            · exact this y hy
      · cases h; intro y hy
        rw [List.mem_singleton.1 hy]; exact hx

theorem resolveRefs_raises (p : PackEntity) : ∀ (fuel : Nat) (o : PackObj), Raises (p.resolveRefs fuel o) [.indexError, .structError, .diverge]
  | 0, _ => raises_error (by simp)
  | fuel + 1, o => by
    unfold PackEntity.resolveRefs
    split
    · exact raises_ok _
    · rename_i sha _
      rcases h : p.index.shaToIndex sha with e | _ | i
      · exact (shaToIndex_raises _ _).of h (by simp)
      · exact raises_ok _
      · dsimp only
        rcases h1 : p.index.offset i with e | ofs
        · exact (offset_raises _ _).of h1 (by simp)
        · dsimp only
          rcases h2 : p.pack.stream ofs with e | o'
          · exact (pstream_raises _ _).of h2 (by simp)
          · dsimp only
            rcases h3 : p.resolveRefs fuel o' with e | l
            · exact (resolveRefs_raises p fuel o').of h3 (by simp)
            · exact raises_ok _
    · rename_i d _
      rcases h2 : p.pack.stream d with e | o'
      · exact (pstream_raises _ _).of h2 (by simp)
      · dsimp only
        rcases h3 : p.resolveRefs fuel o' with e | l
        · exact (resolveRefs_raises p fuel o').of h3 (by simp)
        · exact raises_ok _

theorem resolveRefs_entries (p : PackEntity) : ∀ (fuel : Nat) (o : PackObj) (l : List PackObj), p.resolveRefs fuel o = .ok l → ∀ x ∈ l, FromPack x
  | 0, _, _, h => nomatch h
  | fuel + 1, o, l, h => by
    have key : ∀ (ofs : Nat) (l : List PackObj), (match p.pack.stream ofs with
          | .error e => .error e
          | .ok o' =>
            match p.resolveRefs fuel o' with
            | .error e => .error e
            | .ok l => .ok (o' :: l) : Res (List PackObj)) = .ok l → ∀ x ∈ l, FromPack x := by
      intro ofs l h
      rcases h2 : p.pack.stream ofs with e | o'
      · simp [h2] at h
      · simp only [h2] at h
        rcases h3 : p.resolveRefs fuel o' with e | l'
        · simp [h3] at h
        · simp only [h3, Except.ok.injEq] at h
          subst h
          intro y hy
          rcases List.mem_cons.1 hy with rfl | hy
          · exact packObjectAt_entry h2
          · exact resolveRefs_entries p fuel o' l' h3 y hy
    unfold PackEntity.resolveRefs at h
    split at h
    · cases h; simp
    · rename_i sha _
      rcases h1 : p.index.shaToIndex sha with e | _ | i
      · simp [h1] at h
      · simp only [h1, Except.ok.injEq] at h; subst h; simp
      · simp only [h1] at h
        rcases h2 : p.index.offset i with e | ofs
        · simp [h2] at h
        · simp only [h2] at h
          exact key _ _ h
    · exact key _ _ h

theorem collectAt_raises (p : PackEntity) (fuel o : Nat) :
    Raises (p.collectStreamsAtOffset fuel o) [.indexError, .structError, .diverge] := by
  unfold PackEntity.collectStreamsAtOffset
  rcases h : p.pack.collectStreams fuel o with e | l
  · exact (collectStreams_raises _ _ _).of h (by simp)
  · dsimp only
    split
    · exact raises_error (by simp)
    · rename_i last _
      split
      · rcases h' : p.resolveRefs fuel last with e | l'
        · exact (resolveRefs_raises _ _ _).of h' (by simp)
        · exact raises_ok _
      · exact raises_ok _

theorem collectAt_entries (p : PackEntity) (fuel o : Nat) (l : List PackObj)
    (h : p.collectStreamsAtOffset fuel o = .ok l) : ∀ x ∈ l, FromPack x := by
  unfold PackEntity.collectStreamsAtOffset at h
  rcases h1 : p.pack.collectStreams fuel o with e | l1
  · simp [h1] at h
  · have h2 := collectStreams_entries _ _ _ _ h1
    simp only [h1] at h
    split at h
    · cases h
    · rename_i last _
      split at h
      · rcases h' : p.resolveRefs fuel last with e | l'
        · simp [h'] at h
        · have h3 := resolveRefs_entries _ _ _ _ h'
          simp only [h', Except.ok.injEq] at h
          subst h
          intro x hx
          rcases List.mem_append.1 hx with hx | hx
          · exact h2 x hx
          · exact h3 x hx
      · cases h; exact h2

/-- The streams a returned object consists of. -/
def PStream.Made : PStream → Prop
  | .base r => Sane r
  | .delta l => ∀ x ∈ l, FromPack x
  | .resolved _ => True

theorem deltaNew_raises {l : List PackObj} (hl : ∀ x ∈ l, FromPack x) : Raises (deltaNew l) [.valueError] := by
  unfold deltaNew
  split
  · exact raises_error (by simp)
  · split
    · exact raises_error (by simp)
    · rename_i b hb
      split
      · exact raises_error (by simp)
      · obtain ⟨n, hn⟩ := typeIdToType_ok (hl b (List.mem_of_getLast? hb)).1
        simp only [hn]
        exact raises_ok _

theorem deltaNew_made {l : List PackObj} (hl : ∀ x ∈ l, FromPack x) {t : PyName} {s : PStream}
    (h : deltaNew l = .ok (t, s)) : s.Made := by
  unfold deltaNew at h
  split at h
  · cases h
  · split at h
    · cases h
    · rename_i b hb
      split at h
      · cases h
      · obtain ⟨n, hn⟩ := typeIdToType_ok (hl b (List.mem_of_getLast? hb)).1
        simp only [hn, Except.ok.injEq, Prod.mk.injEq] at h
        rw [← h.2]; exact hl

theorem entityIndex_raises (p : PackEntity) (sha : Bytes) (h : sha ≠ []) : Raises (p.shaToIndex sha) [.badObject] := by
  unfold PackEntity.shaToIndex
  rcases h' : p.index.shaToIndex sha with e | _ | i
  · exact (shaToIndex_raises_nothing _ _ h).of h' (by simp)
  · exact raises_error (by simp)
  · exact raises_ok _

theorem streamAt_raises (p : PackEntity) (fuel : Nat) (sha : Bytes) (i : Nat) :
    Raises (p.streamAt fuel sha i) [.structError, .indexError, .valueError, .diverge] := by
  unfold PackEntity.streamAt
  rcases h : p.index.offset i with e | ofs
  · exact (offset_raises _ _).of h (by simp)
  · dsimp only
    rcases h1 : packObjectHeaderInfo (p.pack.data.drop ofs) with e | ⟨t, n, j⟩
    · exact (packObjectHeaderInfo_raises _).of h1 (by simp)
    · dsimp only
      split
      · rcases h2 : p.pack.stream ofs with e | o
        · exact (pstream_raises _ _).of h2 (by simp)
        · obtain ⟨n, hn⟩ := typeIdToType_ok (packObjectAt_entry h2).1
          simp only [hn]
          exact raises_ok _
      · rcases h2 : p.collectStreamsAtOffset fuel ofs with e | l
        · exact (collectAt_raises _ _ _).of h2 (by simp)
        · dsimp only
          rcases h3 : deltaNew l with e | ⟨t, s⟩
          · exact (deltaNew_raises (collectAt_entries _ _ _ _ h2)).of h3 (by simp)
          · exact raises_ok _

theorem streamAt_made (p : PackEntity) (fuel : Nat) (sha : Bytes) (i : Nat) (o : OStream)
    (ho : p.streamAt fuel sha i = .ok o) : o.stream.Made := by
  unfold PackEntity.streamAt at ho
  rcases h : p.index.offset i with e | ofs
  · simp [h] at ho
  · simp only [h] at ho
    rcases h1 : packObjectHeaderInfo (p.pack.data.drop ofs) with e | ⟨t, n, j⟩
    · simp [h1] at ho
    · simp only [h1] at ho
      split at ho
      · rcases h2 : p.pack.stream ofs with e | x
        · simp [h2] at ho
        · have hx := packObjectAt_entry h2
          obtain ⟨n, hn⟩ := typeIdToType_ok hx.1
          simp only [h2, hn, Except.ok.injEq] at ho
          subst ho
          exact hx.2.1
      · rcases h2 : p.collectStreamsAtOffset fuel ofs with e | l
        · simp [h2] at ho
        · simp only [h2] at ho
          rcases h3 : deltaNew l with e | ⟨t, s⟩
          · simp [h3] at ho
          · simp only [h3, Except.ok.injEq] at ho
            subst ho
            exact deltaNew_made (collectAt_entries _ _ _ _ h2) h3

/-! ## Decompression -/

variable {zl : Zlib}

theorem decompress_sane (z : ZDec) (w : Bytes) (max : Int) (hm : 0 < max) :
    (∃ d, (z.decompress zl w max).2 = .ok d ∧ (d.length : Int) ≤ max) ∨ (z.decompress zl w max).2 = .error .zlibError := by
  unfold ZDec.decompress
  rw [if_neg (by omega)]
  split
  · left; exact ⟨_, rfl, by simp; omega⟩
  · split
    · right; rfl
    · dsimp only
      split
      · left
        refine ⟨_, rfl, ?_⟩
        rw [List.length_take]
        omega
      · rename_i hl
        have hl : (zl.out (z.fed ++ w)).length ≤ z.produced + max.toNat := by
          rcases Nat.lt_or_ge (z.produced + max.toNat) (zl.out (z.fed ++ w)).length with h | h
          · exact absurd ⟨by omega, h⟩ hl
          · exact h
        split
        · right; rfl
        · have : ((zl.out (z.fed ++ w)).drop z.produced).length ≤ max := by
            rw [List.length_drop]; omega
          split
          · left; exact ⟨_, rfl, this⟩
          · left; exact ⟨_, rfl, this⟩

theorem readZip_sane (r : Reader) (n : Int) (h : Sane r) (hn : 0 < n) (hb : n ≤ r.s - r.br) :
    Sane (r.readZip zl n).1 ∧ (r.readZip zl n).1.s = r.s ∧
    ((∃ d, (r.readZip zl n).2 = .ok d ∧ (d.length : Int) ≤ n ∧ (r.readZip zl n).1.br = r.br + d.length) ∨
      (r.readZip zl n).2 = .error .zlibError) := by
  unfold Reader.readZip
  dsimp only
  generalize pySlice r.m _ _ = w
  rcases decompress_sane (zl := zl) r.zip w n hn with ⟨d, h1, h2⟩ | h1
  · rcases hz : r.zip.decompress zl w n with ⟨z, _ | d'⟩
    · rw [hz] at h1; cases h1
    · rw [hz] at h1; cases h1
      refine ⟨⟨h.1, ?_, h.2.2⟩, rfl, .inl ⟨_, rfl, h2, rfl⟩⟩
      dsimp only
      omega
  · rcases hz : r.zip.decompress zl w n with ⟨z, e | d'⟩
    · rw [hz] at h1; cases h1
      exact ⟨⟨h.1, h.2.1, h.2.2⟩, rfl, .inr rfl⟩
    · rw [hz] at h1; cases h1

theorem readZip_br_le (r : Reader) (n : Int) : r.br ≤ (r.readZip zl n).1.br := by
  unfold Reader.readZip
  dsimp only
  generalize pySlice r.m _ _ = w
  rcases r.zip.decompress zl w n with ⟨z, e | d⟩
  · exact Int.le_refl _
  · dsimp only; omega

theorem readCore_sane : ∀ (fuel : Nat) (r : Reader) (n : Int), Sane r → (r.s - r.br).toNat < fuel →
    Sane (r.readCore zl fuel n).1 ∧ (r.readCore zl fuel n).1.s = r.s ∧ r.br ≤ (r.readCore zl fuel n).1.br ∧
    ((∃ d, (r.readCore zl fuel n).2 = .ok d ∧ (r.readCore zl fuel n).1.br = r.br + d.length ∧ (1 ≤ n → (d.length : Int) ≤ n)) ∨
      (r.readCore zl fuel n).2 = .error .zlibError)
  | 0, _, _, _, hf => absurd hf (by omega)
  | fuel + 1, r, n, h, hf => by
    unfold Reader.readCore
    dsimp only
    generalize hs : (if n < 1 then r.s - r.br else min n (r.s - r.br)) = size
    have hsb : 0 ≤ size ∧ size ≤ r.s - r.br ∧ (1 ≤ n → size ≤ n) := by
      have := h.2.1
      rw [← hs]; split <;> omega
    split
    · exact ⟨h, rfl, Int.le_refl _, .inl ⟨[], rfl, by simp, by simp; omega⟩⟩
    · rename_i hne
      simp only [h.2.2, List.nil_append]
      obtain ⟨h1, h2, h3⟩ := readZip_sane (zl := zl) r size h (by omega) (by omega)
      have hbr := readZip_br_le (zl := zl) r size
      rcases hz : r.readZip zl size with ⟨r', e | d⟩
      · rw [hz] at h1 h2 h3 hbr
        rcases h3 with ⟨d, hd, _⟩ | h3
        · cases hd
        · cases h3
          exact ⟨h1, h2, hbr, .inr rfl⟩
      · rw [hz] at h1 h2 h3 hbr
        dsimp only at h1 h2 hbr
        rcases h3 with ⟨d', hd, h4, h5⟩ | h3
        · cases hd
          dsimp only at h5
          dsimp only
          split
          · rename_i hc
            have hl : 0 < d.length := List.length_pos_iff.2 hc.1
            have hc2 : (d.length : Int) < size := by have := hc.2.1; simpa using this
            obtain ⟨h6, h7, h8, h9⟩ := readCore_sane fuel r' (size - d.length) h1 (by omega)
            rcases hr : r'.readCore zl fuel (size - d.length) with ⟨r2, e | more⟩
            · rw [hr] at h6 h7 h8 h9
              rcases h9 with ⟨_, hd, _⟩ | h9
              · cases hd
              · cases h9
                exact ⟨h6, h7.trans h2, Int.le_trans hbr h8, .inr rfl⟩
            · rw [hr] at h6 h7 h8 h9
              rcases h9 with ⟨_, hd, h10, h11⟩ | h9
              · cases hd
                have := h11 (by omega)
                dsimp only at h10
                refine ⟨h6, h7.trans h2, Int.le_trans hbr h8, .inl ⟨_, rfl, ?_, ?_⟩⟩
                · rw [List.length_append]; dsimp only; omega
                · rw [List.length_append]; omega
              · cases h9
          · exact ⟨h1, h2, hbr, .inl ⟨_, rfl, h5, by omega⟩⟩
        · cases h3

/-- The stream is sane and at most `k` bytes of it are left. -/
def Left (r : Reader) (k : Nat) : Prop := Sane r ∧ r.s - r.br ≤ k

theorem read_sane : ReadRaises Left (Reader.read zl) [.zlibError] := by
  intro r k n h
  have e : r.read zl n = r.readCore zl r.fuel n := by
    unfold Reader.read Reader.needS
    rw [if_pos h.1.1]
  obtain ⟨h1, h2, h3, h4⟩ := readCore_sane (zl := zl) r.fuel r n h.1 (by unfold Reader.fuel; omega)
  rw [e]
  have := h.2
  have := h1.2.1
  refine ⟨((r.readCore zl r.fuel n).1.s - (r.readCore zl r.fuel n).1.br).toNat, ⟨h1, by omega⟩, by omega, ?_⟩
  rcases h4 with ⟨d, h5, h6, h7⟩ | h4
  · exact .inl ⟨d, h5, by omega, h7⟩
  · exact .inr ⟨_, by simp, h4⟩

/-! ## Deltas -/

section
variable {σ ω : Type} {I : σ → Nat → Prop} {read : σ → Int → σ × Res Bytes} {S : List Err}

/-- `k` bytes can be written at the position. -/
def SpaceFor (b : Buf) (k : Nat) : Prop := b.fixed = true → b.pos + k ≤ b.data.length

theorem room_write (b : Buf) (d : Bytes) (k : Nat) (h : SpaceFor b (d.length + k)) :
    ∃ b', b.write d = (b', .ok ()) ∧ SpaceFor b' k := by
  unfold Buf.write
  rw [if_neg]
  · refine ⟨_, rfl, fun hf => ?_⟩
    have := h hf
    simp only [List.length_append, List.length_take, List.length_drop]
    omega
  · intro hc
    have := h hc.1
    omega

theorem SpaceFor.mono {b : Buf} {j k : Nat} (h : SpaceFor b k) (hj : j ≤ k) : SpaceFor b j := fun hf => by have := h hf; omega

/-- Copying a whole stream into memory of sufficient size. -/
theorem copyLoop_raises (hr : ReadRaises I read S) (size chunk : Int) (hc : 0 < chunk) : ∀ (fuel : Nat) (dbw : Int) (s : σ) (w : Buf) (k : Nat),
    I s k → SpaceFor w k → (dbw < size ∨ dbw = size ∧ k = 0) → k < fuel →
    Raises (streamCopyLoop read Buf.write size chunk fuel dbw s w).2.2 S
  | 0, _, _, _, _, _, _, _, hf => absurd hf (by omega)
  | fuel + 1, dbw, s, w, k, h, hw, hd, hf => by
    unfold streamCopyLoop
    dsimp only
    obtain ⟨k', h1, h2, h3⟩ := hr s k (min chunk (size - dbw)) h
    rcases hs : read s (min chunk (size - dbw)) with ⟨s', e | d⟩
    · rw [hs] at h3
      rcases h3 with ⟨d, h3, _⟩ | ⟨e', he, h3⟩
      · cases h3
      · cases h3; exact raises_error he
    · rw [hs] at h1 h3
      rcases h3 with ⟨d', h3, h4, h5⟩ | ⟨e', he, h3⟩
      · cases h3
        obtain ⟨w', hw1, hw2⟩ := room_write w d k' (hw.mono h4)
        dsimp only
        rw [hw1]
        dsimp only
        split
        · exact raises_ok _
        · rename_i hn
          have hn1 : ¬ (d.length : Int) < min chunk (size - dbw) := fun hh => hn (.inl hh)
          have hn2 : ¬ dbw + d.length = size := fun hh => hn (.inr hh)
          have : dbw < size := by
            rcases hd with hd | ⟨hd, hk⟩
            · exact hd
            · exfalso
              have : d.length = 0 := by omega
              omega
          have := h5 (by omega)
          exact copyLoop_raises hr size chunk hc fuel _ s' w' k' h1 hw2 (by omega) (by omega)
      · cases h3

theorem bufWrite_raises (b : Buf) (d : Bytes) : Raises (b.write d).2 [.valueError] := by
  unfold Buf.write; split
  · exact raises_error (by simp)
  · exact raises_ok _

theorem allocate_room (n : Int) (h : 0 ≤ n) : ∃ b, allocateMemory n = .ok b ∧ SpaceFor b n.toNat := by
  unfold allocateMemory
  split
  · exact ⟨_, rfl, fun hf => nomatch hf⟩
  · rw [if_neg (by omega)]
    exact ⟨_, rfl, fun _ => by simp⟩

theorem optByte_raises (db : Bytes) (c b s : Nat) (st : Nat × Nat) : Raises (optByte db c b s st) [.indexError] := by
  unfold optByte pyIndex; split
  · split
    · exact raises_ok _
    · rename_i h
      split at h
      · cases h
      · cases h; exact raises_error (by simp)
  · exact raises_ok _

theorem decodeCopy_raises (db : Bytes) (c i : Nat) : Raises (decodeCopy db c i) [.indexError] := by
  unfold decodeCopy
  refine raises_bind (optByte_raises _ _ _ _ _) fun _ _ => ?_
  refine raises_bind (optByte_raises _ _ _ _ _) fun _ _ => ?_
  refine raises_bind (optByte_raises _ _ _ _ _) fun _ _ => ?_
  refine raises_bind (optByte_raises _ _ _ _ _) fun _ _ => ?_
  refine raises_bind (optByte_raises _ _ _ _ _) fun _ _ => ?_
  refine raises_bind (optByte_raises _ _ _ _ _) fun _ _ => ?_
  exact raises_bind (optByte_raises _ _ _ _ _) fun _ _ => raises_ok _

theorem assert_raises (b : Bool) : Raises (pyAssert b) [.assertionError] := by
  unfold pyAssert; split
  · exact raises_ok _
  · exact raises_error (by simp)

theorem applyLoop_raises (src : Bytes) (n : Nat) (db : Bytes) (dbSize : Nat) {write : ω → Bytes → ω × Res Unit}
    (hw : ∀ w d, Raises (write w d).2 [.valueError]) (i : Nat) (w : ω) :
    Raises (applyLoop src n db dbSize write i w).2 [.valueError, .indexError, .assertionError] := by
  induction hk : dbSize - i using Nat.strongRecOn generalizing i w with
  | _ k ih =>
    unfold applyLoop
    split
    · rename_i hi
      rcases hc : pyIndex db i with e | c
      · refine raises_error ?_
        unfold pyIndex at hc
        split at hc
        · cases hc
        · cases hc; simp
      · dsimp only
        split
        · split
          · rename_i e he
            exact (decodeCopy_raises _ _ _).of he (by simp)
          · rename_i off sz i2 hd
            have := decodeCopy_mono hd
            split
            · exact (assert_raises _).mono (by simp)
            · have h3 := hw w (pySlice src off (off + sz))
              rcases hww : write w (pySlice src off (off + sz)) with ⟨w', e | _⟩
              · rw [hww] at h3
                exact h3.of rfl (by simp)
              · exact ih _ (by omega) i2 w' rfl
        · split
          · have h3 := hw w (pySlice db (i + 1) (i + 1 + c))
            rcases hww : write w (pySlice db (i + 1) (i + 1 + c)) with ⟨w', e | _⟩
            · rw [hww] at h3
              exact h3.of rfl (by simp)
            · exact ih _ (by omega) _ w' rfl
          · exact raises_error (by simp)
    · exact (assert_raises _).mono (by simp)

theorem msbLoop_end : ∀ (n : Nat) (rest : Bytes) (i size j v : Nat), msbLoop n rest i size = .ok (j, v) → i < j ∧ j ≤ i + rest.length
  | 0, _, _, _, _, _, h => nomatch h
  | _ + 1, [], _, _, _, _, h => nomatch h
  | n + 1, b :: rest, i, size, j, v, h => by
    unfold msbLoop at h
    dsimp only at h
    split at h
    · cases h; simp
    · have := msbLoop_end n rest _ _ _ _ h
      simp only [List.length_cons]; omega

theorem msbSize_end {d : Bytes} {o j v : Nat} (h : msbSize d o = .ok (j, v)) : o < j ∧ j ≤ d.length := by
  unfold msbSize at h
  rcases h' : msbLoop d.length (d.drop o) 0 0 with e | ⟨i, s⟩
  · rw [h'] at h; cases h
  · rw [h'] at h; cases h
    have := msbLoop_end _ _ _ _ _ _ h'
    rw [List.length_drop] at this
    omega

/-- What `_set_cache_brute_` raises on streams that raise `zlib.error` at most. -/
abbrev bruteErrors : List Err := [.zlibError, .indexError, .assertionError, .valueError]

/-- After its head has been read, a delta still fits its memory. -/
def Head (I : σ → Nat → Prop) (d : DeltaInfo σ) : Prop :=
  ∃ k, I d.strm k ∧ d.offset + d.dbuf.length + k ≤ d.size ∧ 0 < d.offset

theorem head_raises (hr : ReadRaises I read [.zlibError]) (s : σ) (n : Nat) (h : I s n) :
    Raises (readDeltaHead read s n) bruteErrors ∧ ∀ d, readDeltaHead read s n = .ok d → Head I d ∧ d.size = n := by
  unfold readDeltaHead
  obtain ⟨k', h1, h2, h3⟩ := hr s n 512 h
  rcases hs : read s 512 with ⟨s', e | b⟩
  · rw [hs] at h3
    rcases h3 with ⟨d, h3, _⟩ | ⟨e', he, h3⟩
    · cases h3
    · cases h3
      exact ⟨raises_error (by simp at he ⊢; exact .inl he), fun _ hd => nomatch hd⟩
  · rw [hs] at h1 h3
    rcases h3 with ⟨d', h3, h4, h5⟩ | ⟨e', he, h3⟩
    · cases h3
      dsimp only at h1 ⊢
      refine ⟨?_, fun d hd => ?_⟩
      · refine raises_bind ((msbSize_raises _ _).mono (by simp)) fun a _ => ?_
        exact raises_bind ((msbSize_raises _ _).mono (by simp)) fun a _ => raises_ok _
      · rcases ha : msbSize b 0 with e | ⟨o, x⟩
        · rw [ha] at hd; cases hd
        · rcases hb : msbSize b o with e | ⟨o', y⟩
          · simp only [ha, bind, Except.bind, hb] at hd; cases hd
          · simp only [ha, bind, Except.bind, hb, pure, Except.pure, Except.ok.injEq] at hd
            subst hd
            have := msbSize_end hb
            refine ⟨⟨k', h1, ?_, by dsimp only; omega⟩, rfl⟩
            dsimp only
            rw [List.length_drop]; omega
    · cases h3

theorem heads_raises (hr : ReadRaises I read [.zlibError]) (N : Nat) : ∀ (l : List (σ × Nat)), (∀ x ∈ l, I x.1 x.2 ∧ x.2 < N) →
    Raises (readDeltaHeads read l) bruteErrors ∧
      ∀ ds, readDeltaHeads read l = .ok ds → (∀ d ∈ ds, Head I d ∧ d.size < N) ∧ ds.length = l.length
  | [], _ => ⟨raises_ok _, fun ds h => by cases h; simp⟩
  | (s, n) :: l, h => by
    obtain ⟨h1, h2⟩ := head_raises hr s n (h (s, n) (by simp)).1
    obtain ⟨h3, h4⟩ := heads_raises hr N l fun x hx => h x (by simp [hx])
    unfold readDeltaHeads
    refine ⟨raises_bind h1 fun _ _ => raises_bind h3 fun _ _ => raises_ok _, fun ds hd => ?_⟩
    rcases ha : readDeltaHead read s n with e | d
    · rw [ha] at hd; cases hd
    · rcases hb : readDeltaHeads read l with e | l'
      · simp only [ha, bind, Except.bind, hb] at hd; cases hd
      · simp only [ha, bind, Except.bind, hb, pure, Except.pure, Except.ok.injEq] at hd
        subst hd
        obtain ⟨h5, h6⟩ := h4 _ hb
        refine ⟨fun x hx => ?_, by simp [h6]⟩
        rcases List.mem_cons.1 hx with rfl | hx
        · obtain ⟨h7, h8⟩ := h2 _ ha
          exact ⟨h7, by rw [h8]; exact (h (s, n) (by simp)).2⟩
        · exact h5 x hx

theorem one_raises (hr : ReadRaises I read [.zlibError]) (fuel : Nat) (bb tb : Buf) (d : DeltaInfo σ) (h : Head I d) (hf : d.size < fuel) :
    Raises (applyOne fuel read bb tb d) bruteErrors := by
  obtain ⟨k, hk1, hk2, hk3⟩ := h
  unfold applyOne
  obtain ⟨dd, ha1, ha2⟩ := allocate_room ((d.size : Int) - d.offset) (by omega)
  rw [ha1]
  refine raises_bind (raises_ok _) fun dd' h' => ?_
  cases h'
  dsimp only
  obtain ⟨b, hw1, hw2⟩ := room_write dd d.dbuf k (ha2.mono (by omega))
  rw [hw1]
  refine raises_bind (raises_ok _) fun b' h' => ?_
  cases h'
  have h2 := copyLoop_raises hr d.size (256 * PAGESIZE : Nat) (by decide) fuel 0 d.strm b k hk1 hw2 (by omega) (by omega)
  unfold streamCopy
  rcases hc : streamCopyLoop read Buf.write d.size (256 * PAGESIZE : Nat) fuel 0 d.strm b with ⟨s, b, e | x⟩
  · rw [hc] at h2
    exact h2.of rfl (by simp)
  refine raises_bind (raises_ok _) fun dd _ => ?_
  have h3 := applyLoop_raises bb.data d.srcSize dd.data dd.data.length bufWrite_raises 0 tb
  unfold applyDeltaData
  rcases hc : applyLoop bb.data d.srcSize dd.data dd.data.length Buf.write 0 tb with ⟨b, e | x⟩
  · rw [hc] at h3
    exact h3.of rfl (by simp)
  exact raises_ok _

theorem all_raises (hr : ReadRaises I read [.zlibError]) (fuel : Nat) : ∀ (ds : List (DeltaInfo σ)) (bb tb : Buf),
    (∀ d ∈ ds, Head I d ∧ d.size < fuel) → Raises (applyAll fuel read ds bb tb) bruteErrors
  | [], _, _, _ => raises_ok _
  | d :: ds, bb, tb, h => by
    unfold applyAll
    refine raises_bind (one_raises hr fuel bb tb d (h d (by simp)).1 (h d (by simp)).2) fun x _ => ?_
    exact all_raises hr fuel ds _ _ fun x hx => h x (by simp [hx])

theorem brute_raises (hr : ReadRaises I read [.zlibError]) (fuel : Nat) (ds : List (σ × Nat)) (b : σ × Nat)
    (hd : ∀ x ∈ ds, I x.1 x.2 ∧ x.2 < fuel) (hb : I b.1 b.2 ∧ b.2 < fuel) (hne : ds ≠ []) :
    Raises (setCacheBrute fuel read ds b) bruteErrors := by
  obtain ⟨h1, h2⟩ := heads_raises hr fuel ds hd
  unfold setCacheBrute
  refine raises_bind h1 fun infos hi => ?_
  dsimp only
  generalize hm : List.foldl (fun m (d : DeltaInfo σ) => max m d.targetSize) 0 infos = mx
  have hsz : b.2 ≤ (if ds.length > 1 then (max b.2 mx, max b.2 mx) else (b.2, mx)).1 := by
    split <;> dsimp only <;> omega
  generalize (if ds.length > 1 then (max b.2 mx, max b.2 mx) else (b.2, mx)) = sz at hsz ⊢
  obtain ⟨bb, ha1, ha2⟩ := allocate_room (sz.1 : Nat) (by omega)
  obtain ⟨tb, ha3, -⟩ := allocate_room (sz.2 : Nat) (by omega)
  rw [ha1]
  refine raises_bind (raises_ok _) fun bb' h' => ?_
  cases h'
  have h3 := copyLoop_raises hr (sz.1 : Nat) (256 * PAGESIZE : Nat) (by decide) fuel 0 b.1 bb b.2 hb.1 (ha2.mono (by omega)) (by omega) hb.2
  unfold streamCopy
  rcases hc : streamCopyLoop read Buf.write (sz.1 : Nat) (256 * PAGESIZE : Nat) fuel 0 b.1 bb with ⟨s, b', e | x⟩
  · rw [hc] at h3
    exact h3.of rfl (by simp)
  refine raises_bind (raises_ok _) fun bb _ => ?_
  rw [ha3]
  refine raises_bind (raises_ok _) fun tb _ => ?_
  refine raises_bind (all_raises hr fuel _ _ _ fun d hd => (h2 _ hi).1 d (List.mem_reverse.1 hd)) fun x _ => ?_
  cases infos with
  | nil =>
    have := (h2 _ hi).2
    exact absurd (List.length_eq_zero_iff.1 this.symm) hne
  | cons d l => exact raises_ok _

theorem newDelta_raises (hr : ReadRaises I read [.zlibError]) (fuel : Nat) (l : List (σ × Nat)) (hl : ∀ x ∈ l, I x.1 x.2 ∧ x.2 < fuel) :
    Raises (newDeltaReader fuel read l) bruteErrors := by
  unfold newDeltaReader
  split
  · rename_i b d ds he
    have hm : ∀ x ∈ b :: d :: ds, I x.1 x.2 ∧ x.2 < fuel := fun x hx => hl x (by rw [← he] at hx; exact List.mem_reverse.1 hx)
    refine raises_bind (brute_raises hr fuel _ b (fun x hx => hm x ?_) (hm b (by simp)) (by simp)) fun _ _ => raises_ok _
    exact List.mem_cons_of_mem _ (List.mem_reverse.1 hx)
  · exact raises_error (by simp)
end

/-- The fuel exceeds the sizes noted in the pack. -/
def PStream.Enough (fuel : Nat) : PStream → Prop
  | .delta l => ∀ x ∈ l, x.size < fuel
  | _ => True

theorem open_raises (fuel : Nat) (s : PStream) (h : s.Made) (hf : s.Enough fuel) :
    Raises (s.open zl fuel) bruteErrors ∧ ∀ s', s.open zl fuel = .ok s' → s'.Made ∧ s'.Enough fuel ∧ ∀ l, s' ≠ .delta l := by
  cases s with
  | base r => exact ⟨raises_ok _, fun s' hs => by cases hs; exact ⟨h, trivial, fun l hl => nomatch hl⟩⟩
  | resolved r => exact ⟨raises_ok _, fun s' hs => by cases hs; exact ⟨h, trivial, fun l hl => nomatch hl⟩⟩
  | delta l =>
    unfold PStream.open
    have := newDelta_raises (read_sane (zl := zl)) fuel (l.map fun o => (o.stream, o.size)) (by
      intro x hx
      obtain ⟨o, ho, rfl⟩ := List.mem_map.1 hx
      exact ⟨(h o ho).2, hf o ho⟩)
    dsimp only
    rcases hn : newDeltaReader fuel (Reader.read zl) (l.map fun o => (o.stream, o.size)) with e | r
    · simp only [hn]; exact ⟨this.of hn (by simp), fun _ hd => nomatch hd⟩
    · simp only [hn]; exact ⟨raises_ok _, fun s' hs => by cases hs; exact ⟨trivial, trivial, fun l hl => nomatch hl⟩⟩

theorem stream_read_raises (fuel : Nat) (s : PStream) (n : Int) (h : s.Made) (hf : s.Enough fuel) :
    (PStream.read zl fuel s n).1.Made ∧ (PStream.read zl fuel s n).1.Enough fuel ∧ Raises (PStream.read zl fuel s n).2 bruteErrors := by
  unfold PStream.read
  obtain ⟨h1, h2⟩ := open_raises (zl := zl) fuel s h hf
  rcases ho : s.open zl fuel with e | r | l | d
  · exact ⟨h, hf, h1.of ho (by simp)⟩
  · have hs : Sane r := (h2 _ ho).1
    obtain ⟨k', h3, _, h4⟩ := read_sane (zl := zl) r (r.s - r.br).toNat n ⟨hs, by have := hs.2.1; omega⟩
    refine ⟨h3.1, trivial, ?_⟩
    rcases h4 with ⟨d, h4, _⟩ | ⟨e, he, h4⟩
    · show Raises (r.read zl n).2 _
      rw [h4]; exact raises_ok _
    · show Raises (r.read zl n).2 _
      rw [h4]; exact raises_error (by simp at he ⊢; exact .inl he)
  · exact absurd rfl ((h2 _ ho).2.2 l)
  · exact ⟨trivial, trivial, raises_ok _⟩

end GitDB
