import Verif.Proofs.Raises
import Verif.Proofs.PackChain
import Verif.Proofs.ToyZlib
import Verif.Props.Damaged
/-!
# C92: the exceptions that reading from a pack can raise

The pack and its index are arbitrary bytes.  `diverge` is a loop that never ends: an offset delta against itself or reference
deltas in a circle.
-/
set_option autoImplicit false

namespace GitDB.Props
open GitDB Spec

variable {zl : Zlib}

/-- **C92** opening the two files. -/
theorem C92_open (file : Bytes) : Raises (IndexFile.load file) [.structError, .assertionError] ∧
    Raises (PackFile.load file) [.structError, .parseError] := by
  constructor
  · rcases C53_open file with ⟨x, h, -⟩ | ⟨h, -⟩ | ⟨h, -⟩ <;> rw [h]
    · exact raises_ok _
    · exact raises_error (by simp)
    · exact raises_error (by simp)
  · unfold PackFile.load
    split
    · split
      · exact raises_error (by simp)
      · exact raises_ok _
    · exact raises_error (by simp)

/-- **C92** `stream(sha)`. -/
theorem C92_stream (p : PackEntity) (fuel : Nat) (sha : Bytes) (hs : sha ≠ []) :
    Raises (p.stream fuel sha) [.badObject, .structError, .indexError, .valueError, .diverge] := by
  unfold PackEntity.stream
  rcases h : p.shaToIndex sha with e | i
  · exact (entityIndex_raises p sha hs).of h (by simp)
  · exact (streamAt_raises p fuel sha i).mono (by simp)

/-- **C92** `info(sha)`. -/
theorem C92_info (p : PackEntity) (fuel : Nat) (sha : Bytes) (hs : sha ≠ []) :
    Raises (p.info zl fuel sha) [.badObject, .structError, .indexError, .zlibError, .assertionError, .diverge] := by
  unfold PackEntity.info
  rcases h : p.shaToIndex sha with e | i
  · exact (entityIndex_raises p sha hs).of h (by simp)
  · dsimp only
    unfold PackEntity.infoAt
    rcases h : p.index.offset i with e | ofs
    · exact (offset_raises _ _).of h (by simp)
    · dsimp only
      rcases h1 : packObjectHeaderInfo (p.pack.data.drop ofs) with e | ⟨t, n, j⟩
      · exact (packObjectHeaderInfo_raises _).of h1 (by simp)
      · obtain ⟨nm, hn⟩ := typeIdToType_ok (packObjectHeaderInfo_type h1)
        dsimp only
        split
        · simp only [hn]; exact raises_ok _
        · rcases h2 : p.collectStreamsAtOffset fuel ofs with e | l
          · exact (collectAt_raises _ _ _).of h2 (by simp)
          · dsimp only
            have hl := collectAt_entries _ _ _ _ h2
            split
            · rename_i first last hf hla
              have h3 := read_sane (zl := zl) first.stream first.size 512 (hl first (List.mem_of_head? hf)).2
              obtain ⟨k', -, -, h3⟩ := h3
              rcases hr : first.stream.read zl 512 with ⟨r', e | buf⟩
              · rw [hr] at h3
                rcases h3 with ⟨d, h3, _⟩ | ⟨e', he, h3⟩
                · cases h3
                · cases h3
                  have : e = .zlibError := by simpa using he
                  rw [this]
                  exact raises_error (by simp)
              · dsimp only
                rcases h4 : msbSize buf 0 with e | ⟨o, x⟩
                · exact (msbSize_raises _ _).of h4 (by simp)
                · dsimp only
                  rcases h5 : msbSize buf o with e | ⟨o2, y⟩
                  · exact (msbSize_raises _ _).of h5 (by simp)
                  · dsimp only
                    split
                    · exact raises_error (by simp)
                    · obtain ⟨nm, hn⟩ := typeIdToType_ok (hl last (List.mem_of_getLast? hla)).1
                      simp only [hn]; exact raises_ok _
            · exact raises_error (by simp)

theorem made_of_stream {p : PackEntity} {fuel : Nat} {sha : Bytes} {o : OStream} (h : p.stream fuel sha = .ok o) : o.stream.Made := by
  unfold PackEntity.stream at h
  rcases hi : p.shaToIndex sha with e | i
  · simp [hi] at h
  · simp only [hi] at h
    exact streamAt_made p fuel sha i o h

theorem readMany_raises (fuel : Nat) : ∀ (ns : List Int) (s : PStream), s.Made → s.Enough fuel →
    Raises (readMany (PStream.read zl fuel) s ns).2 bruteErrors
  | [], _, _, _ => raises_ok _
  | n :: ns, s, h, hf => by
    obtain ⟨h1, h2, h3⟩ := stream_read_raises (zl := zl) fuel s n h hf
    unfold readMany
    rcases hr : PStream.read zl fuel s n with ⟨s', e | d⟩
    · rw [hr] at h3; exact h3.of rfl (by simp)
    · rw [hr] at h1 h2
      dsimp only
      have := readMany_raises fuel ns s' h1 h2
      rcases hm : readMany (PStream.read zl fuel) s' ns with ⟨s2, e | ds⟩
      · rw [hm] at this; exact this.of rfl (by simp)
      · exact raises_ok _

/-- **C92** reading, in any way, from a stream obtained from a pack: every read ends, and raises one of four exceptions at most. -/
theorem C92_read (p : PackEntity) (f : Nat) (sha : Bytes) (o : OStream) (h : p.stream f sha = .ok o) (fuel : Nat)
    (hf : o.stream.Enough fuel) (ns : List Int) :
    Raises (readMany (PStream.read zl fuel) o.stream ns).2 [.zlibError, .indexError, .assertionError, .valueError] :=
  readMany_raises fuel ns o.stream (made_of_stream h) hf

/-- **C92** the `size` of such a stream. -/
theorem C92_size (p : PackEntity) (f : Nat) (sha : Bytes) (o : OStream) (h : p.stream f sha = .ok o) (fuel : Nat)
    (hf : o.stream.Enough fuel) : Raises (o.getSize zl fuel) [.zlibError, .indexError, .assertionError, .valueError] := by
  have hm := made_of_stream h
  have hb : (∃ n, o.size = some n) ∨ ∃ l, o.stream = .delta l := by
    unfold PackEntity.stream at h
    rcases hi : p.shaToIndex sha with e | i
    · simp [hi] at h
    · simp only [hi] at h
      unfold PackEntity.streamAt at h
      repeat' split at h
      all_goals first | cases h | skip
      · exact .inl ⟨_, rfl⟩
      · rename_i t s hd
        right
        unfold deltaNew at hd
        repeat' split at hd
        all_goals first | cases hd | skip
        exact ⟨_, rfl⟩
  unfold OStream.getSize
  obtain ⟨h1, h2⟩ := open_raises (zl := zl) fuel o.stream hm hf
  rcases hb with ⟨n, hn⟩ | ⟨l, hl⟩
  · rw [hn]; exact raises_ok _
  · rcases o.size with _ | n
    · dsimp only
      rcases ho : o.stream.open zl fuel with e | s
      · exact h1.of ho (by simp)
      · have := (h2 s ho).2.2
        rw [hl] at ho
        unfold PStream.open at ho
        dsimp only at ho
        split at ho
        · cases ho
        · cases ho; exact raises_ok _
    · exact raises_ok _

theorem copy_raises {σ ω ρ : Type} {I : σ → Prop} {read : σ → Int → σ × Res Bytes} {write : ω → Bytes → ω × Res ρ} {S : List Err}
    (hr : ∀ s n, I s → I (read s n).1 ∧ Raises (read s n).2 S) (hw : ∀ w d, Raises (write w d).2 []) (size chunk : Int) :
    ∀ (fuel : Nat) (dbw : Int) (s : σ) (w : ω), I s → Raises (streamCopyLoop read write size chunk fuel dbw s w).2.2 (.diverge :: S)
  | 0, _, _, _, _ => raises_error (by simp)
  | fuel + 1, dbw, s, w, h => by
    unfold streamCopyLoop
    dsimp only
    obtain ⟨h1, h2⟩ := hr s (min chunk (size - dbw)) h
    rcases hs : read s (min chunk (size - dbw)) with ⟨s', e | d⟩
    · rw [hs] at h2
      exact h2.of rfl fun e he => List.mem_cons_of_mem _ he
    · rw [hs] at h1
      dsimp only
      have h3 := hw w d
      rcases hww : write w d with ⟨w', e | _⟩
      · rw [hww] at h3
        exact h3.of rfl (by simp)
      · dsimp only
        split
        · exact raises_ok _
        · exact copy_raises hr hw size chunk fuel _ s' w' h1

/-- **C92** `is_valid_stream(sha, use_crc=True)`. -/
theorem C92_crc (p : PackEntity) (fuel : Nat) (sha : Bytes) (hs : sha ≠ []) :
    Raises (p.isValidCrc fuel sha)
      [.unsupportedOperation, .badObject, .structError, .valueError, .assertionError, .keyError, .diverge] := by
  have hcrc : ∀ (data : Bytes) (chunk next f cur crc : Nat), Raises (crcLoop data chunk next f cur crc) [.diverge] := by
    intro data chunk next f
    induction f with
    | zero => intro cur crc; exact raises_error (by simp)
    | succ f ih =>
      intro cur crc
      unfold crcLoop
      dsimp only
      split
      · exact ih _ _
      · exact raises_ok _
  unfold PackEntity.isValidCrc
  split
  · exact raises_error (by simp)
  · rcases h : p.shaToIndex sha with e | i
    · exact (entityIndex_raises p sha hs).of h (by simp)
    · dsimp only
      rcases h1 : p.index.offset i with e | ofs
      · exact (offset_raises _ _).of h1 (by simp)
      · dsimp only
        have hn : Raises (p.nextOffset ofs) [.structError, .valueError, .assertionError, .keyError] := by
          unfold PackEntity.nextOffset
          rcases h2 : p.index.offsets with e | l
          · exact (offsets_raises _).of h2 (by simp)
          · dsimp only
            split
            · exact raises_error (by simp)
            · unfold dictGet
              split
              · exact raises_ok _
              · exact raises_error (by simp)
        rcases h2 : p.nextOffset ofs with e | next
        · exact hn.of h2 (by simp)
        · dsimp only
          rcases h3 : p.index.crc i with e | c
          · exact (crc_raises _ _).of h3 (by simp)
          · dsimp only
            rcases h4 : crcLoop p.pack.data chunkSize next fuel ofs 0 with e | x
            · exact (hcrc _ _ _ _ _ _).of h4 (by simp)
            · exact raises_ok _

/-- **C92** an index which finds a name but lists no offsets (its counts disagree): checking the crc raises `AssertionError`. -/
theorem C92_crc_no_offsets (p : PackEntity) (fuel : Nat) (sha : Bytes) (i ofs : Nat) (hv : ¬ p.index.version < 2)
    (hi : p.shaToIndex sha = .ok i) (ho : p.index.offset i = .ok ofs) (he : p.index.offsets = .ok []) :
    p.isValidCrc fuel sha = .error .assertionError := by
  unfold PackEntity.isValidCrc PackEntity.nextOffset
  rw [if_neg hv]
  simp [hi, ho, he]

theorem typeName_ascii {t : Nat} {nm : PyName} (h : typeIdToType t = .ok nm) : nm.text.all (fun b => b.toNat < 128) = true := by
  unfold typeIdToType at h
  repeat' split at h
  all_goals first | cases h | skip
  all_goals decide

theorem streamAt_ascii {p : PackEntity} {fuel : Nat} {sha : Bytes} {o : OStream} (h : p.stream fuel sha = .ok o) :
    o.type.text.all (fun b => b.toNat < 128) = true := by
  unfold PackEntity.stream at h
  rcases hi : p.shaToIndex sha with e | i
  · simp [hi] at h
  · simp only [hi] at h
    unfold PackEntity.streamAt at h
    repeat' split at h
    all_goals first | cases h | skip
    · exact typeName_ascii (by assumption)
    · rename_i t s hd
      unfold deltaNew at hd
      repeat' split at hd
      all_goals first | cases hd | skip
      exact typeName_ascii (by assumption)

/-- **C92** `is_valid_stream(sha)`: it returns `True` or raises. -/
theorem C92_sha (H : Hash) (p : PackEntity) (fuel : Nat) (sha : Bytes) (hs : sha ≠ [])
    (hf : ∀ o, p.stream fuel sha = .ok o → o.stream.Enough fuel) :
    Raises (p.isValidSha H zl fuel sha)
      [.badObject, .structError, .indexError, .valueError, .zlibError, .assertionError, .diverge] ∧
    p.isValidSha H zl fuel sha ≠ .ok false := by
  unfold PackEntity.isValidSha
  rcases h : p.stream fuel sha with e | o
  · exact ⟨(C92_stream p fuel sha hs).of h (by simp), by simp⟩
  · dsimp only
    rcases hz : o.getSize zl fuel with e | size
    · exact ⟨(C92_size p fuel sha o h fuel (hf o h)).of hz (by simp), by simp⟩
    · dsimp only
      have ha := streamAt_ascii h
      have hw : ∀ (w : Sha1Writer) (d : Bytes), Raises (w.writeInt d).2 [] := fun w d => raises_ok _
      have hc := copy_raises (I := fun s : PStream => s.Made ∧ s.Enough fuel) (read := PStream.read zl fuel)
        (write := Sha1Writer.writeInt) (S := bruteErrors)
        (fun s n hs => by
          obtain ⟨h1, h2, h3⟩ := stream_read_raises (zl := zl) fuel s n hs.1 hs.2
          exact ⟨⟨h1, h2⟩, h3⟩) hw size chunkSize fuel 0 o.stream
          (Sha1Writer.writeInt {} (o.type.text ++ [0x20] ++ natToDec size ++ [0])).1 ⟨made_of_stream h, hf o h⟩
      unfold writeObject looseObjectHeader streamCopy
      rw [if_pos ha]
      simp only [Sha1Writer.writeInt, Sha1Writer.write] at hc ⊢
      rcases hl : streamCopyLoop (PStream.read zl fuel) Sha1Writer.writeInt size chunkSize fuel 0 o.stream
          (Sha1Writer.writeInt {} (o.type.text ++ [0x20] ++ natToDec size ++ [0])).1 with ⟨s', w', e | n⟩
      all_goals simp only [Sha1Writer.writeInt, Sha1Writer.write] at hl
      all_goals rw [hl] at hc ⊢
      · exact ⟨hc.of rfl (by simp [bruteErrors]), by simp⟩
      · dsimp only
        split
        · exact ⟨raises_ok _, by simp⟩
        · exact ⟨raises_error (by simp), by simp⟩

/-! Each of them is raised.  The index has one entry, for the name of 20 zeros. -/

/-- An index of version 1. -/
def smallIdx (ofs : Nat) : Bytes := (List.replicate 256 [0, 0, 0, 1]).flatten ++ beBytes 4 ofs ++ List.replicate 20 0
/-- An index of version 2 with the given table of offsets. -/
def smallIdx2 (ofs : Bytes) : Bytes :=
  [0xff, 0x74, 0x4f, 0x63, 0, 0, 0, 2] ++ (List.replicate 256 [0, 0, 0, 1]).flatten ++ List.replicate 20 0 ++ [0, 0, 0, 0] ++ ofs
/-- A pack with the blob `A` at 12, followed by the bytes. -/
def smallPack (rest : Bytes) : PackFile := ⟨List.replicate 12 0 ++ [0x31, 65, 255] ++ rest, 2, 1⟩
/-- Open the index and use both. -/
def ask {α : Type} (idx : Bytes) (pack : PackFile) (f : PackEntity → Res α) : Res α :=
  match IndexFile.load idx with
  | .error e => .error e
  | .ok x => f ⟨x, pack⟩
/-- The first byte of the object. -/
def firstByte (zl : Zlib) (p : PackEntity) : Res Bytes :=
  match p.stream 9 (List.replicate 20 0) with
  | .error e => .error e
  | .ok o => (o.stream.read zl 9 1).2

/-- The type of the object. -/
def askType (p : PackEntity) (name : UInt8) : Res Bytes := (p.stream 9 (List.replicate 20 name)).map (·.type.text)

example : ask (smallIdx 12) (smallPack []) (askType · 0) = .ok strBlobType ∧
    ask (smallIdx 12) (smallPack []) (firstByte toyZlib) = .ok [65] := by decide +kernel

/-- `stream`: an unknown name, a table of offsets that is cut off, an offset outside of the file, a delta against an unknown object. -/
example : ask (smallIdx 12) (smallPack []) (askType · 1) = .error .badObject ∧
    ask (smallIdx2 [0, 0]) (smallPack []) (askType · 0) = .error .structError ∧
    ask (smallIdx 15) (smallPack []) (askType · 0) = .error .indexError ∧
    ask (smallIdx 15) (smallPack (0x73 :: List.replicate 20 9)) (askType · 0) = .error .valueError := by decide +kernel

/-- `stream`: an offset delta against itself. -/
example (fuel : Nat) : ask (smallIdx 15) (smallPack [0x63, 0, 1, 1, 0, 255]) (fun p => (p.stream fuel (List.replicate 20 0)).map (·.sha)) =
    .error .diverge := by
  have h : ∀ (x : IndexFile) (hx : IndexFile.load (smallIdx 15) = .ok x) (i : Nat) (hi : x.shaToIndex (List.replicate 20 0) = .ok (some i))
      (ho : x.offset i = .ok 15), ask (smallIdx 15) (smallPack [0x63, 0, 1, 1, 0, 255])
        (fun p => (p.stream fuel (List.replicate 20 0)).map (·.sha)) = .error .diverge := by
    intro x hx i hi ho
    have hc := collectStreams_zero (smallPack [0x63, 0, 1, 1, 0, 255]) 15 _ rfl rfl fuel
    have hp : packObjectHeaderInfo ((smallPack [0x63, 0, 1, 1, 0, 255]).data.drop 15) = .ok (6, 3, 1) := by decide
    simp only [ask, hx, PackEntity.stream, PackEntity.shaToIndex, hi, PackEntity.streamAt, ho, hp, OFS_DELTA, REF_DELTA,
      PackEntity.collectStreamsAtOffset, hc]
    rfl
  have hx : (IndexFile.load (smallIdx 15)).toOption.isSome = true ∧
      (∀ x, (IndexFile.load (smallIdx 15)).toOption = some x → x.shaToIndex (List.replicate 20 0) = .ok (some 0) ∧ x.offset 0 = .ok 15) := by
    rcases h : (IndexFile.load (smallIdx 15)).toOption with _ | x
    · exfalso
      revert h
      decide +kernel
    · refine ⟨rfl, fun y hy => ?_⟩
      cases hy
      have : ((IndexFile.load (smallIdx 15)).toOption.map fun x => (x.shaToIndex (List.replicate 20 0), x.offset 0)) =
        some (.ok (some 0), .ok 15) := by decide +kernel
      rw [h] at this
      simp only [Option.map_some, Option.some.injEq, Prod.mk.injEq] at this
      exact this
  rcases hl : IndexFile.load (smallIdx 15) with e | x
  · rw [hl] at hx; cases hx.1
  · rw [hl] at hx
    obtain ⟨h1, h2⟩ := hx.2 x rfl
    exact h x hl 0 h1 h2

/-- `info` of a delta: compressed data that is broken, an empty delta, sizes that are cut off within a byte group and between
two of them, an unknown object to apply it to. -/
example : ask (smallIdx 15) (smallPack [0x63, 3, 251]) (fun p => (p.info toyZlib 9 (List.replicate 20 0)).map (·.2)) = .error .zlibError ∧
    ask (smallIdx 15) (smallPack [0x60, 3, 255]) (fun p => (p.info toyZlib 9 (List.replicate 20 0)).map (·.2)) = .error .assertionError ∧
    ask (smallIdx 15) (smallPack [0x61, 3, 129, 255]) (fun p => (p.info toyZlib 9 (List.replicate 20 0)).map (·.2)) = .error .assertionError ∧
    ask (smallIdx 15) (smallPack [0x61, 3, 1, 255]) (fun p => (p.info toyZlib 9 (List.replicate 20 0)).map (·.2)) = .error .indexError ∧
    ask (smallIdx 15) (smallPack (0x73 :: List.replicate 20 9 ++ [1, 1, 0, 255])) (fun p => (p.info toyZlib 9 (List.replicate 20 0)).map (·.2)) =
      .error .badObject := by decide +kernel

/-- Reading: a good delta; broken compressed data, an instruction that is cut off, an empty delta, an instruction that does not exist. -/
example : ask (smallIdx 15) (smallPack [0x64, 3, 1, 1, 1, 66, 255]) (firstByte toyZlib) = .ok [66] ∧
    ask (smallIdx 15) (smallPack [0x63, 3, 251]) (firstByte toyZlib) = .error .zlibError ∧
    ask (smallIdx 15) (smallPack [0x63, 3, 1, 1, 0x91, 255]) (firstByte toyZlib) = .error .indexError ∧
    ask (smallIdx 15) (smallPack [0x60, 3, 255]) (firstByte toyZlib) = .error .assertionError ∧
    ask (smallIdx 15) (smallPack [0x63, 3, 1, 1, 0, 255]) (firstByte toyZlib) = .error .valueError := by decide +kernel

/-- An index of version 2 with two counts: for names that begin with 0, and altogether. -/
def twoCounts (first all : UInt8) (rest : Bytes) : Bytes :=
  [0xff, 0x74, 0x4f, 0x63, 0, 0, 0, 2] ++ [0, 0, 0, first] ++ (List.replicate 255 [0, 0, 0, all]).flatten ++ rest

/-- `use_crc=True`: version 1, an unknown name, no offset at all, half an offset, counts that decrease.  (`KeyError`: `C28_large_offset`.) -/
example : ask (smallIdx 12) (smallPack []) (·.isValidCrc 9 (List.replicate 20 0)) = .error .unsupportedOperation ∧
    ask (smallIdx2 [0, 0, 0, 12]) (smallPack []) (·.isValidCrc 9 (List.replicate 20 1)) = .error .badObject ∧
    ask (smallIdx2 []) (smallPack []) (·.isValidCrc 9 (List.replicate 20 0)) = .error .structError ∧
    ask (twoCounts 1 2 (List.replicate 20 0 ++ List.replicate 20 1 ++ List.replicate 8 0 ++ [0, 0, 0, 12, 0, 0])) (smallPack [])
      (·.isValidCrc 9 (List.replicate 20 0)) = .error .valueError ∧
    ask (twoCounts 1 0 (List.replicate 20 0)) (smallPack []) (·.isValidCrc 9 (List.replicate 20 0)) = .error .assertionError := by
  decide +kernel

/-- The hypotheses of `C92_crc_no_offsets`. -/
example : ask (twoCounts 1 0 (List.replicate 20 0)) (smallPack []) (fun p => .ok (decide (¬ p.index.version < 2))) = .ok true ∧
    (ask (twoCounts 1 0 (List.replicate 20 0)) (smallPack []) (·.shaToIndex (List.replicate 20 0))).isOk = true ∧
    ask (twoCounts 1 0 (List.replicate 20 0)) (smallPack []) (·.index.offsets) = .ok [] := by decide +kernel

end GitDB.Props
