import Verif.Proofs.FileMemory
import Verif.Props.DeltaReader
/-!
# C75: what `file_contents_ro` and `allocate_memory` return
-/
set_option autoImplicit false

namespace GitDB.Props
open GitDB Spec

variable {σ : Type}

/-- Random access to `m` shows the bytes `d`. -/
structure Shows (m : Contents) (d : Bytes) : Prop where
  len : m.len = d.length
  item : ∀ i, m.item i = match d[i]? with
    | some x => .ok x.toNat
    | none => .error .indexError
  slice : ∀ i j, m.slice i j = (d.drop i).take (j - i)

/-- The stream `m` has still to deliver `rem`. -/
def Delivers (m : Contents) (rem : Bytes) : Prop :=
  match m with
  | .map d pos => d.drop pos = rem
  | .bytes _ => False
  | .wrapped d pos => d.drop pos = rem

/-- The system reports the size of the file and reads it in one go. -/
structure Whole (env : FileEnv) (n : Nat) : Prop where
  stat1 : env.stat1 = none ∨ env.stat1 = some n
  stat2 : env.stat2 = some n
  read : ∃ k, env.read = some k ∧ n ≤ k

theorem shows_map (d : Bytes) (p : Nat) : Shows (.map d p) d := ⟨rfl, fun _ => rfl, fun _ _ => rfl⟩
theorem shows_bytes (d : Bytes) : Shows (.bytes d) d := ⟨rfl, fun _ => rfl, fun _ _ => rfl⟩
theorem shows_wrapped (d : Bytes) (p : Nat) : Shows (.wrapped d p) d := ⟨rfl, fun _ => rfl, fun _ _ => rfl⟩

/-- The four ways through the function. -/
theorem fileContents_cases (env : FileEnv) (stream allow : Bool) (f : OpenFile) :
    (allow = true ∧ f.bytes = [] ∧ fileContents env stream allow f = (f, .error .valueError)) ∨
    (allow = true ∧ f.bytes ≠ [] ∧ env.map1 = true ∧
      fileContents env stream allow f = (f, .ok (.map f.bytes 0))) ∨
    (allow = true ∧ f.bytes ≠ [] ∧ env.map1 = false ∧ ∃ n, env.stat1 = some n ∧
      ((f.bytes.length < n ∧ fileContents env stream allow f = (f, .error .valueError)) ∨
       (n ≤ f.bytes.length ∧ env.map2 = true ∧
        fileContents env stream allow f = (f, .ok (.map (if n = 0 then f.bytes else f.bytes.take n) 0))))) ∨
    ((allow = true → f.bytes ≠ [] ∧ env.map1 = false ∧ ∀ n, env.stat1 = some n → n ≤ f.bytes.length ∧ env.map2 = false) ∧
      fileContents env stream allow f = readManually env stream f) := by
  obtain ⟨m1, s1, m2, s2, rd⟩ := env
  cases allow
  · exact .inr (.inr (.inr ⟨fun h => (nomatch h), rfl⟩))
  · by_cases he : f.bytes = []
    · exact .inl ⟨rfl, he, by simp [fileContents, mapFd, he]⟩
    · cases m1
      · cases s1 with
        | none =>
          exact .inr (.inr (.inr ⟨fun _ => ⟨he, rfl, fun n h => (nomatch h)⟩, by simp [fileContents, mapFd, he]⟩))
        | some n =>
          by_cases hn : f.bytes.length < n
          · exact .inr (.inr (.inl ⟨rfl, he, rfl, n, rfl, .inl ⟨hn, by simp [fileContents, mapFd, he, hn]⟩⟩))
          · cases m2
            · refine .inr (.inr (.inr ⟨fun _ => ⟨he, rfl, fun k h => ?_⟩, by simp [fileContents, mapFd, he, hn]⟩))
              cases h
              exact ⟨by omega, rfl⟩
            · exact .inr (.inr (.inl ⟨rfl, he, rfl, n, rfl, .inr ⟨by omega, rfl, by
                simp [fileContents, mapFd, he, hn]⟩⟩))
      · exact .inr (.inl ⟨rfl, he, rfl, by simp [fileContents, mapFd, he]⟩)

/-- **C75** whether or not the file can be mapped: the memory shows the whole file, if it is not empty, the descriptor is
at its beginning and the system reads it in one go. -/
theorem C75_contents (env : FileEnv) (stream allow : Bool) (f : OpenFile) (hne : f.bytes ≠ []) (hpos : f.pos = 0)
    (hw : Whole env f.bytes.length) :
    ∃ m, (fileContents env stream allow f).2 = .ok m ∧ Shows m f.bytes ∧
      (stream = true → Delivers m f.bytes) := by
  obtain ⟨k, hk, hkn⟩ := hw.read
  rcases fileContents_cases env stream allow f with h | h | h | h
  · exact absurd h.2.1 hne
  · exact ⟨.map f.bytes 0, by rw [h.2.2.2], shows_map _ _, fun _ => rfl⟩
  · obtain ⟨_, _, _, n, hn, h⟩ := h
    have : n = f.bytes.length := by
      rcases hw.stat1 with h1 | h1 <;> rw [h1] at hn
      · cases hn
      · injection hn with hn; exact hn.symm
    subst this
    rcases h with h | h
    · exact absurd h.1 (Nat.lt_irrefl _)
    · refine ⟨_, by rw [h.2.2], ?_⟩
      have hl : f.bytes.length ≠ 0 := fun h => hne (List.length_eq_zero_iff.mp h)
      rw [if_neg hl, List.take_length]
      exact ⟨shows_map _ _, fun _ => rfl⟩
  · rw [h.2, readManually, hw.stat2, hk]
    simp only [hpos, List.drop_zero, List.take_length, List.take_of_length_le hkn]
    cases stream
    · exact ⟨_, rfl, shows_bytes _, fun h => (nomatch h)⟩
    · exact ⟨_, rfl, shows_wrapped _ _, fun _ => rfl⟩

/-- **C75** mapped or not, a stream is read like any other one. -/
theorem C75_stream : FileReads Contents.read Delivers := by
  refine ⟨⟨?_⟩, ?_⟩
  · intro m rem n h hn
    have h0 : ¬ n < 0 := by omega
    cases m with
    | bytes d => exact absurd h id
    | map d p =>
      simp only [Delivers] at h
      simp only [Contents.read, h0, if_false, h]
      refine ⟨_, rfl, ?_⟩
      simp only [Delivers]
      rw [← List.drop_drop, h, List.length_take]
      by_cases hl : n.toNat ≤ rem.length
      · rw [Nat.min_eq_left hl]
      · rw [Nat.min_eq_right (by omega), List.drop_length, List.drop_eq_nil_of_le (by omega)]
    | wrapped d p =>
      simp only [Delivers] at h
      simp only [Contents.read, h0, if_false, h]
      refine ⟨_, rfl, ?_⟩
      simp only [Delivers]
      rw [← List.drop_drop, h, List.length_take]
      by_cases hl : n.toNat ≤ rem.length
      · rw [Nat.min_eq_left hl]
      · rw [Nat.min_eq_right (by omega), List.drop_length, List.drop_eq_nil_of_le (by omega)]
  · intro m rem h
    cases m with
    | bytes d => exact absurd h id
    | map d p => exact ⟨_, rfl, by simpa [Delivers] using h⟩
    | wrapped d p => exact ⟨_, rfl, by simpa [Delivers] using h⟩

/-- **C75** whatever the system does: a contiguous piece of the file, `ValueError` or `OSError`. -/
theorem C75_piece (env : FileEnv) (stream allow : Bool) (f : OpenFile) :
    (∃ m i n, (fileContents env stream allow f).2 = .ok m ∧ Shows m ((f.bytes.drop i).take n)) ∨
    (fileContents env stream allow f).2 = .error .valueError ∨
    (fileContents env stream allow f).2 = .error .osError := by
  rcases fileContents_cases env stream allow f with h | h | h | h
  · exact .inr (.inl (by rw [h.2.2]))
  · exact .inl ⟨_, 0, f.bytes.length, by rw [h.2.2.2], by
      rw [List.drop_zero, List.take_length]; exact shows_map _ _⟩
  · obtain ⟨_, _, _, n, hn, h | h⟩ := h
    · exact .inr (.inl (by rw [h.2]))
    · refine .inl ⟨_, 0, (if n = 0 then f.bytes.length else n), by rw [h.2.2], ?_⟩
      by_cases h0 : n = 0
      · rw [if_pos h0, if_pos h0, List.drop_zero, List.take_length]; exact shows_map _ _
      · rw [if_neg h0, if_neg h0, List.drop_zero]; exact shows_map _ _
  · rw [h.2, readManually]
    split
    · rename_i n k hn hk
      refine .inl ⟨_, f.pos, min k n, rfl, ?_⟩
      rw [List.take_take]
      cases stream
      · exact shows_bytes _
      · exact shows_wrapped _ _
    · exact .inr (.inr rfl)

/-- **C75** an empty file: `ValueError` if mapping is allowed, else no bytes. -/
theorem C75_empty (env : FileEnv) (stream : Bool) (pos : Nat) :
    (fileContents env stream true ⟨[], pos⟩).2 = .error .valueError ∧
    (∀ n k, env.stat2 = some n → env.read = some k →
      ∃ m, (fileContents env stream false ⟨[], pos⟩).2 = .ok m ∧ Shows m []) := by
  refine ⟨by simp [fileContents, mapFd], fun n k hn hk => ?_⟩
  rw [fileContents, if_neg (by simp), readManually, hn, hk]
  simp only [List.drop_nil, List.take_nil]
  cases stream
  · exact ⟨_, rfl, shows_bytes _⟩
  · exact ⟨_, rfl, shows_wrapped _ _⟩

/-- **C75** without mapping the result depends on the position of the descriptor, and one short `read` is taken for the
whole file. -/
theorem C75_position (env : FileEnv) (stream : Bool) (f : OpenFile) (k : Nat) (hs : env.stat2 = some f.bytes.length)
    (hk : env.read = some k) :
    ∃ m, (fileContents env stream false f).2 = .ok m ∧ Shows m ((f.bytes.drop f.pos).take k) := by
  rw [fileContents, if_neg (by simp), readManually, hs, hk]
  simp only
  rw [List.take_of_length_le (l := f.bytes.drop f.pos) (by simp)]
  cases stream
  · exact ⟨_, rfl, shows_bytes _⟩
  · exact ⟨_, rfl, shows_wrapped _ _⟩

theorem contentsOfNode_whole (env : FileEnv) (n : Node)
    (hw : ∀ d mode, n = .file d mode → Whole env d.length) :
    match contentsOfNode env n, mapFile (some n) with
    | .ok m, .ok d => m.data = d
    | .error e, .error e' => e = e'
    | _, _ => False := by
  cases n with
  | dir => rfl
  | file d mode =>
    cases d with
    | nil => simp [contentsOfNode, mapFile, fileContents, mapFd]
    | cons a as =>
      obtain ⟨m, h1, h2, _⟩ := C75_contents env false true ⟨a :: as, 0⟩ (by simp) rfl (hw _ _ rfl)
      have hc : contentsOfNode env (.file (a :: as) mode) = .ok m := h1
      rw [hc]
      simp only [mapFile]
      have := h2.slice 0 (a :: as).length
      have hl := h2.len
      cases m <;> simp only [Contents.slice, Contents.len, pySlice, List.drop_zero, Nat.sub_zero, Contents.data] at this hl ⊢ <;>
        rw [← hl, List.take_length, hl, List.take_length] at this <;> exact this

/-- **C75** reading a loose object when the file cannot be mapped: no difference, if the system reads files in one go. -/
theorem C75_loose (zl : Zlib) (fs : Fs) (noatime second : Bool) (env1 env2 : FileEnv) (sha : Bytes)
    (h1 : ∀ d mode, fs (objectPath (binToHex sha)) = some (.file d mode) → Whole env1 d.length)
    (h2 : ∀ d mode, fs (objectPath (binToHex sha)) = some (.file d mode) → Whole env2 d.length) :
    looseStreamIn zl fs noatime second env1 env2 sha = looseStream zl fs noatime second sha := by
  unfold looseStreamIn looseStream mapLooseObjectIn mapLooseObject
  cases hn : fs (objectPath (binToHex sha)) with
  | none => rfl
  | some n =>
    have e1 := contentsOfNode_whole env1 n (fun d mode h => h1 d mode (by rw [hn, h]))
    have e2 := contentsOfNode_whole env2 n (fun d mode h => h2 d mode (by rw [hn, h]))
    simp only
    have second_try : (match (match (if second = true then contentsOfNode env2 n else .error .osError) with
          | .error .osError => (.error .badObject : Res Contents)
          | r => r) with
        | .error e => (.error e : Res (Bytes × Int × Reader))
        | .ok m => Reader.new zl m.data) =
        (match (match (if second = true then mapFile (some n) else .error .osError) with
          | .error .osError => (.error .badObject : Res Bytes)
          | r => r) with
        | .error e => (.error e : Res (Bytes × Int × Reader))
        | .ok m => Reader.new zl m) := by
      cases second
      · rfl
      · rcases hc : contentsOfNode env2 n with e | m <;> rcases hm : mapFile (some n) with e' | d <;>
          rw [hc, hm] at e2 <;> simp only at e2
        · subst e2; cases e <;> simp
        · subst e2; simp
    cases noatime
    · exact second_try
    · rcases hc : contentsOfNode env1 n with e | m <;> rcases hm : mapFile (some n) with e' | d <;>
          rw [hc, hm] at e1 <;> simp only at e1
      · subst e1
        rw [hm] at second_try
        cases e
        case osError => simp only [if_true]; exact second_try
        all_goals rfl
      · subst e1; simp

/-- **C75** if it cannot be mapped and one `read` returns `k` bytes only, the rest of the object is missing, as if the file
had been cut. -/
theorem C75_loose_short (zl : Zlib) (fs : Fs) (second : Bool) (env : FileEnv) (sha d : Bytes) (mode k : Nat)
    (env2 : FileEnv) (hf : fs (objectPath (binToHex sha)) = some (.file d mode)) (hm : env.map1 = false) (hm2 : env.map2 = false)
    (hs : env.stat1 = some d.length) (hs2 : env.stat2 = some d.length) (hk : env.read = some k) (h0 : 0 < k) (hd : d ≠ []) :
    looseStreamIn zl fs true second env env2 sha =
      looseStream zl (fs.set (objectPath (binToHex sha)) (some (.file (d.take k) mode))) true second sha := by
  obtain ⟨a, as, rfl⟩ := List.exists_cons_of_ne_nil hd
  obtain ⟨k, rfl⟩ : ∃ j, k = j + 1 := ⟨k - 1, by omega⟩
  have hc : contentsOfNode env (.file (a :: as) mode) = .ok (.bytes ((a :: as).take (k + 1))) := by
    simp [contentsOfNode, fileContents, mapFd, hm, hs, hm2, readManually, hs2, hk]
  simp [looseStreamIn, looseStream, mapLooseObjectIn, mapLooseObject, hf, hc, Fs.set, mapFile, Contents.data]

/-- **C75** memory that is not mapped: whatever a delta chain resolves to with mapped memory, it resolves to without, and
every sequence of reads returns the same. -/
theorem C75_fallback (works : Nat → Bool) (fuel : Nat) (read : σ → Int → σ × Res Bytes) (ss : List (σ × Nat))
    (r : DeltaReader) (h : newDeltaReader fuel read ss = .ok r) :
    ∃ r', newDeltaReaderIn works fuel read ss = .ok r' ∧ r'.size = r.size ∧
      ∀ ns, (readMany (fun r n => ((r.read n).1, .ok (r.read n).2)) r' ns).2 =
        (readMany (fun r n => ((r.read n).1, .ok (r.read n).2)) r ns).2 := by
  obtain ⟨r', h1, h2⟩ := newDeltaReaderIn_alike works fuel read ss r h
  refine ⟨r', h1, h2.2.1, ?_⟩
  have key : ∀ (ns : List Int) (a b : DeltaReader), AlikeReaders a b →
      (readMany (fun (r : DeltaReader) n => ((r.read n).1, (.ok (r.read n).2 : Res Bytes))) b ns).2 =
        (readMany (fun (r : DeltaReader) n => ((r.read n).1, (.ok (r.read n).2 : Res Bytes))) a ns).2 := by
    intro ns
    induction ns with
    | nil => intro a b _; rfl
    | cons n ns ih =>
      intro a b hab
      obtain ⟨e1, e2⟩ := alike_read a b hab n
      have := ih _ _ e2
      simp only [readMany, e1]
      rcases h1 : readMany (fun (r : DeltaReader) n => ((r.read n).1, (.ok (r.read n).2 : Res Bytes))) (b.read n).1 ns with ⟨x, ex | dx⟩ <;>
        rcases h2 : readMany (fun (r : DeltaReader) n => ((r.read n).1, (.ok (r.read n).2 : Res Bytes))) (a.read n).1 ns with ⟨y, ey | dy⟩ <;>
        rw [h1, h2] at this <;> simp_all
  intro ns
  exact key ns r r' h2

/-- The delta "3 bytes of `abcd`", which inserts five. -/
def tooLong : Bytes := [4, 3, 5, 0x76, 0x77, 0x78, 0x79, 0x7a]

/-- **C75** but a delta that produces more than it announces, refused with mapped memory, is cut silently without. -/
theorem C75_fallback_cut :
    newDeltaReader 20 bytesIORead [(tooLong, 8), ([0x61, 0x62, 0x63, 0x64], 4)] = .error .valueError ∧
    (newDeltaReaderIn (fun _ => false) 20 bytesIORead [(tooLong, 8), ([0x61, 0x62, 0x63, 0x64], 4)]).map
      (fun r => (r.size, (r.read 0).2)) = .ok (3, [0x76, 0x77, 0x78]) := by
  decide +kernel

/-! ### concrete cases -/

/-- mapped -/
example : (fileContents ⟨true, none, false, none, none⟩ true true ⟨[1, 2, 3], 2⟩) =
    (⟨[1, 2, 3], 2⟩, .ok (.map [1, 2, 3] 0)) := by decide +kernel
/-- read -/
example : (fileContents ⟨false, some 3, false, some 3, some 100⟩ true true ⟨[1, 2, 3], 0⟩) =
    (⟨[1, 2, 3], 3⟩, .ok (.wrapped [1, 2, 3] 0)) := by decide +kernel
/-- read from the middle, and short -/
example : (fileContents ⟨true, none, true, some 4, some 2⟩ false false ⟨[1, 2, 3, 4], 1⟩) =
    (⟨[1, 2, 3, 4], 3⟩, .ok (.bytes [2, 3])) := by decide +kernel
/-- hypotheses of `C75_contents` -/
example : Whole ⟨false, some 3, false, some 3, some 100⟩ [1, 2, 3].length := ⟨.inr rfl, rfl, 100, rfl, by decide⟩
/-- hypotheses of `C75_stream` -/
example : Delivers (.wrapped [1, 2, 3] 1) [2, 3] := rfl
/-- `bytes` cannot be read as a stream -/
example : ((Contents.bytes [1, 2]).read 1).2 = .error .attributeError := rfl
/-- hypotheses of `C75_fallback` -/
example : (newDeltaReader 20 bytesIORead [([4, 3, 3, 0x76, 0x77, 0x78], 6), ([0x61, 0x62, 0x63, 0x64], 4)]).map
      (fun r => (r.size, (r.read 0).2)) = .ok (3, [0x76, 0x77, 0x78]) ∧
    (newDeltaReaderIn (fun i => i != 1) 20 bytesIORead [([4, 3, 3, 0x76, 0x77, 0x78], 6), ([0x61, 0x62, 0x63, 0x64], 4)]).map
      (fun r => (r.size, (r.read 0).2)) = .ok (3, [0x76, 0x77, 0x78]) := by decide +kernel

end GitDB.Props
