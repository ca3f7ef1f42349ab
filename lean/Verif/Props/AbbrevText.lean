import Verif.Model.AbbrevText
import Verif.Props.Text
import Verif.Props.AnyPast
/-!
# C98: abbreviations as text or bytes; names that are not ASCII
-/
set_option autoImplicit false

namespace GitDB.Props
open GitDB Spec

variable {α : Type}

/-- `arg` is the text `s`, as `str` or encoded. -/
def IsText (arg : PyText) (s : List Char) : Prop := arg = .str s ∨ arg = .bytes (utf8 s)

/-- Hexadecimal digits of either case. -/
def HexText (s : List Char) : Prop := ∀ c ∈ s, c ∈ ['0', '1', '2', '3', '4', '5', '6', '7', '8', '9', 'a', 'b', 'c', 'd', 'e', 'f',
  'A', 'B', 'C', 'D', 'E', 'F']

/-- Every character is below 128. -/
def AsciiText (s : List Char) : Prop := ∀ c ∈ s, c.toNat < 128

theorem HexText.ascii {s : List Char} (h : HexText s) : AsciiText s := by
  have key : ∀ c ∈ ['0', '1', '2', '3', '4', '5', '6', '7', '8', '9', 'a', 'b', 'c', 'd', 'e', 'f', 'A', 'B', 'C', 'D', 'E', 'F'],
      c.toNat < 128 := by decide
  exact fun c hc => key c (h c hc)

theorem isText_force {arg : PyText} {s : List Char} : IsText arg s ↔ forceText arg = .ok s := by
  cases arg with
  | str r =>
    constructor
    · rintro (e | e)
      · cases e; rfl
      · cases e
    · intro e
      simp only [forceText, Except.ok.injEq] at e
      exact .inl (by rw [e])
  | bytes b =>
    have := (C62_text s b).2
    simp only [forceBytes, Except.ok.injEq] at this
    rw [this]
    constructor
    · rintro (e | e)
      · cases e
      · cases e; rfl
    · intro e
      exact .inr (by rw [e])

theorem force_error {arg : PyText} (h : ∀ s, ¬ IsText arg s) : forceText arg = .error .unicodeError := by
  rcases hf : forceText arg with e | s
  · cases arg with
    | str s => cases hf
    | bytes b =>
      simp only [forceText, fromUtf8] at hf
      split at hf
      · cases hf
      · exact hf.symm ▸ rfl
  · exact absurd (isText_force.mpr hf) (h s)

theorem utf8_ascii {s : List Char} (h : AsciiText s) : utf8 s = (s.map Char.toNat).map UInt8.ofNat := by
  induction s with
  | nil => rfl
  | cons c s ih =>
    have hc := h c (by simp)
    have key : ∀ n < 128, String.utf8EncodeChar (Char.ofNat n) = [UInt8.ofNat n] := by decide
    have h1 := key _ hc
    rw [Char.ofNat_toNat] at h1
    rw [show utf8 (c :: s) = String.utf8EncodeChar c ++ utf8 s from rfl, h1, ih (fun x hx => h x (by simp [hx]))]
    rfl

theorem hexStr_ascii {s : List Char} (h : AsciiText s) : hexToBinStr s = hexToBin (utf8 s) := by
  unfold hexToBinStr hexToBinCodes
  rw [if_pos, utf8_ascii h]
  simpa [List.all_eq_true, AsciiText] using h

theorem hexStr_other {s : List Char} (h : ¬ AsciiText s) : hexToBinStr s = .error .valueError := by
  unfold hexToBinStr hexToBinCodes
  rw [if_neg]
  intro h'
  apply h
  simpa [List.all_eq_true, AsciiText] using h'

theorem pad_ascii (s : List Char) : AsciiText (if s.length % 2 ≠ 0 then s ++ ['0'] else s) ↔ AsciiText s := by
  split
  · constructor
    · exact fun h c hc => h c (by simp [hc])
    · intro h c hc
      rcases List.mem_append.mp hc with hc | hc
      · exact h c hc
      · cases List.mem_singleton.mp hc
        decide
  · exact Iff.rfl

theorem pad_utf8 {s : List Char} (h : AsciiText s) :
    utf8 (if s.length % 2 ≠ 0 then s ++ ['0'] else s) = if (utf8 s).length % 2 ≠ 0 then utf8 s ++ [0x30] else utf8 s := by
  have hl : (utf8 s).length = s.length := by rw [utf8_ascii h]; simp
  rw [hl]
  split
  · simp only [utf8, List.flatMap_append]
    rfl
  · rfl

theorem hexToBin_ok : ∀ (b : Bytes), (∃ r, hexToBin b = .ok r) ↔ b.length % 2 = 0 ∧ ∀ c ∈ b, (hexVal c).isSome
  | [] => by simp [hexToBin]
  | [_] => by simp [hexToBin]
  | a :: b :: l => by
    have ih := hexToBin_ok l
    simp only [hexToBin, List.length_cons, List.mem_cons, forall_eq_or_imp]
    rcases ha : hexVal a with _ | x
    · simp
    rcases hb : hexVal b with _ | y
    · simp
    have h2 : (l.length + 1 + 1) % 2 = l.length % 2 := by omega
    simp only [h2, Option.isSome_some, true_and]
    rw [← ih]
    rcases hexToBin l with e | r
    · simp
    · simp

theorem hexVal_char : ∀ n < 128, (hexVal (UInt8.ofNat n)).isSome = true ↔ Char.ofNat n ∈ ['0', '1', '2', '3', '4', '5', '6', '7', '8', '9',
    'a', 'b', 'c', 'd', 'e', 'f', 'A', 'B', 'C', 'D', 'E', 'F'] := by decide

/-- The padded text is converted exactly if all characters are digits. -/
theorem pad_hex {s : List Char} (h : AsciiText s) :
    (∃ r, hexToBinStr (if s.length % 2 ≠ 0 then s ++ ['0'] else s) = .ok r) ↔ HexText s := by
  rw [hexStr_ascii ((pad_ascii s).mpr h), hexToBin_ok, utf8_ascii ((pad_ascii s).mpr h)]
  have hd : ∀ c ∈ s, (hexVal (UInt8.ofNat c.toNat)).isSome = true ↔ c ∈ ['0', '1', '2', '3', '4', '5', '6', '7', '8', '9',
    'a', 'b', 'c', 'd', 'e', 'f', 'A', 'B', 'C', 'D', 'E', 'F'] := by
    intro c hc
    have := hexVal_char _ (h c hc)
    rwa [Char.ofNat_toNat] at this
  constructor
  · rintro ⟨-, h2⟩ c hc
    refine (hd c hc).mp (h2 _ ?_)
    refine List.mem_map_of_mem (List.mem_map_of_mem ?_)
    split
    · simp [hc]
    · exact hc
  · intro hx
    constructor
    · simp only [List.length_map]
      split
      · simp only [List.length_append, List.length_singleton]; omega
      · omega
    · intro u hu
      obtain ⟨m, hm, rfl⟩ := List.mem_map.mp hu
      obtain ⟨c, hc, rfl⟩ := List.mem_map.mp hm
      split at hc
      · rcases List.mem_append.mp hc with hc | hc
        · exact (hd c hc).mpr (hx c hc)
        · cases List.mem_singleton.mp hc
          decide
      · exact (hd c hc).mpr (hx c hc)

variable {τ : Type}

/-- The conversion, whatever is done with the result. -/
theorem text_cases (run : Bytes → τ → τ × Res (Option Bytes)) (t : τ) (arg : PyText) :
    (∀ s, IsText arg s → AsciiText s → completeText run t arg = completeHex (run (utf8 s)) t (utf8 s)) ∧
    (∀ s, IsText arg s → ¬ AsciiText s → completeText run t arg = (t, .error .valueError)) ∧
    ((∀ s, ¬ IsText arg s) → completeText run t arg = (t, .error .unicodeError)) := by
  refine ⟨fun s hs ha => ?_, fun s hs ha => ?_, fun hs => ?_⟩
  · unfold completeText completeHex
    rw [isText_force.mp hs]
    simp only
    rw [hexStr_ascii ((pad_ascii s).mpr ha), pad_utf8 ha]
    rfl
  · unfold completeText
    rw [isText_force.mp hs]
    simp only
    rw [hexStr_other (fun h => ha ((pad_ascii s).mp h))]
  · unfold completeText
    rw [force_error hs]

theorem hex_cases {β : Type} (run : β → β × Res (Option Bytes)) (t : β) {s : List Char} (ha : AsciiText s) (hx : ¬ HexText s) :
    completeHex run t (utf8 s) = (t, .error .binasciiError) := by
  unfold completeHex
  rw [← pad_utf8 ha, ← hexStr_ascii ((pad_ascii s).mpr ha)]
  rcases hh : hexToBinStr (if s.length % 2 ≠ 0 then s ++ ['0'] else s) with e | r
  · have : e = .binasciiError := by
      rw [hexStr_ascii ((pad_ascii s).mpr ha)] at hh
      have := hexToBin_raises _ e hh
      exact List.mem_singleton.mp this
    rw [this]
  · exact absurd ((pad_hex ha).mp ⟨r, hh⟩) hx

/-- **C98** an abbreviation for a `GitDB` in any state may be `str` or `bytes`.  For hexadecimal digits it is what it is for the digits.
Anything else raises after the databases have been collected, and no database is asked: `UnicodeDecodeError` for bytes that are no
UTF-8, `ValueError` for text that is not ASCII, `binascii.Error` for other text. -/
theorem C98_live (order : List Text → List Text) (L : DbOps Disk GitLeaf α) (n : Nat) (D : Disk) (t : GitNode n) (arg : PyText) :
    let r := liveCompleteText order L n D t arg
    let c := liveCollect order n D t
    (∀ s, IsText arg s → HexText s → r = liveComplete order L n D t (utf8 s)) ∧
    (∀ e, c.2 = .error e → r = (c.1, .error e)) ∧
    (∀ l, c.2 = .ok l →
      (∀ s, IsText arg s → AsciiText s → ¬ HexText s → r = (c.1, .error .binasciiError)) ∧
      (∀ s, IsText arg s → ¬ AsciiText s → r = (c.1, .error .valueError)) ∧
      ((∀ s, ¬ IsText arg s) → r = (c.1, .error .unicodeError))) := by
  intro r c
  have hr : r = liveCompleteText order L n D t arg := rfl
  have hc : c = liveCollect order n D t := rfl
  unfold liveCompleteText at hr
  unfold liveComplete
  rw [← hc] at hr ⊢
  rcases hcc : c with ⟨t', e | l⟩
  · rw [hcc] at hr
    exact ⟨fun _ _ _ => hr, fun e' h => by cases h; exact hr, fun l h => by cases h⟩
  · rw [hcc] at hr
    simp only at hr ⊢
    obtain ⟨h1, h2, h3⟩ := text_cases (fun part t => let r := completeDbs L D part l none; ((livePut n t r.1).1, r.2)) t' arg
    refine ⟨fun s hs hx => by rw [hr, h1 s hs hx.ascii], (fun e h => nomatch h), fun l' h => ?_⟩
    cases h
    exact ⟨fun s hs ha hx => by rw [hr, h1 s hs ha, hex_cases _ _ ha hx], fun s hs ha => by rw [hr, h2 s hs ha],
      fun hs => by rw [hr, h3 hs]⟩

/-- **C98** the same for compound databases nested in each other, over databases of any kind. -/
theorem C98_nested {ω σ : Type} (O : DbOps ω σ α) (w : ω) (n : Nat) (t : Nest σ n) (arg : PyText) :
    let r := nestCompleteText O w n t arg
    (∀ s, IsText arg s → HexText s → r = nestComplete O w n t (utf8 s)) ∧
    (∀ s, IsText arg s → AsciiText s → ¬ HexText s → r = (t, .error .binasciiError)) ∧
    (∀ s, IsText arg s → ¬ AsciiText s → r = (t, .error .valueError)) ∧
    ((∀ s, ¬ IsText arg s) → r = (t, .error .unicodeError)) := by
  intro r
  obtain ⟨h1, h2, h3⟩ := text_cases (fun part t => let r := completeDbs O w part (databasesRecursive n t) none; ((putBack n t r.1).1, r.2)) t arg
  exact ⟨fun s hs hx => h1 s hs hx.ascii, fun s hs ha hx => (h1 s hs ha).trans (hex_cases _ _ ha hx), h2, h3⟩

/-- **C98** an answer is given only for digits, and `str` and `bytes` get the same. -/
theorem C98_answer (order : List Text → List Text) (L : DbOps Disk GitLeaf α) (n : Nat) (D : Disk) (t : GitNode n) :
    (∀ arg x, (liveCompleteText order L n D t arg).2 = .ok x →
      ∃ s, IsText arg s ∧ HexText s ∧ (liveComplete order L n D t (utf8 s)).2 = .ok x) ∧
    ∀ s, liveCompleteText order L n D t (.str s) = liveCompleteText order L n D t (.bytes (utf8 s)) := by
  constructor
  · intro arg x h
    obtain ⟨h1, h2, h3⟩ := C98_live order L n D t arg
    rcases hc : (liveCollect order n D t).2 with e | l
    · rw [h2 e hc] at h
      cases h
    obtain ⟨h3, h4, h5⟩ := h3 l hc
    by_cases hs : ∃ s, IsText arg s
    · obtain ⟨s, hs⟩ := hs
      by_cases ha : AsciiText s
      · by_cases hx : HexText s
        · exact ⟨s, hs, hx, by rw [← h1 s hs hx]; exact h⟩
        · rw [h3 s hs ha hx] at h
          cases h
      · rw [h4 s hs ha] at h
        cases h
    · rw [h5 (fun s h => hs ⟨s, h⟩)] at h
      cases h
  · intro s
    unfold liveCompleteText completeText
    have h1 : forceText (.bytes (utf8 s)) = forceText (.str s) := isText_force.mp (.inr rfl)
    rw [h1]

/-! ## Names of files -/

/-- What `os.fsdecode` does with ASCII (in every encoding used for file names): it is itself, and nothing else becomes ASCII. -/
structure FsDecode (decode : Bytes → List Nat) : Prop where
  ascii : ∀ b : Bytes, (∀ c ∈ b, c.toNat < 128) → decode b = b.map UInt8.toNat
  other : ∀ b : Bytes, (∀ c ∈ decode b, c < 128) → ∀ c ∈ b, c.toNat < 128

/-- The results that are no exceptions. -/
def okOf : List (Res Bytes) → List Bytes := List.filterMap fun r => match r with
  | .ok b => some b
  | .error _ => none

theorem hexVal_ascii (c : UInt8) (h : (hexVal c).isSome = true) : c.toNat < 128 := by
  unfold hexVal at h
  split at h
  · omega
  split at h
  · omega
  split at h
  · omega
  · cases h

theorem hexToBin_ascii {b r : Bytes} (h : hexToBin b = .ok r) : ∀ c ∈ b, c.toNat < 128 :=
  fun c hc => hexVal_ascii c (((hexToBin_ok b).mp ⟨r, h⟩).2 c hc)

theorem codes_bytes (b : Bytes) (h : ∀ c ∈ b, c.toNat < 128) : hexToBinCodes (b.map UInt8.toNat) = hexToBin b := by
  unfold hexToBinCodes
  rw [if_pos (by simpa [List.all_eq_true] using h)]
  congr 1
  rw [List.map_map]
  conv => rhs; rw [← List.map_id b]
  exact List.map_congr_left fun c _ => by simp

theorem codes_ok {s : List Nat} {r : Bytes} (h : hexToBinCodes s = .ok r) : ∀ c ∈ s, c < 128 := by
  unfold hexToBinCodes at h
  split at h
  · rename_i h'
    simpa [List.all_eq_true] using h'
  · cases h

variable {decode : Bytes → List Nat}

theorem files_ok (hd : FsDecode decode) {base : Bytes} (hb : ∀ c ∈ base, c.toNat < 128) :
    ∀ fs : List Bytes, okOf (shaIterCodes (decode base) (fs.map decode)) = okOf (shaIterFiles base fs)
  | [] => rfl
  | f :: fs => by
    have ih := files_ok hd hb fs
    simp only [List.map_cons, shaIterCodes, shaIterFiles]
    by_cases hf : ∀ c ∈ f, c.toNat < 128
    · have h1 : decode base ++ decode f = (base ++ f).map UInt8.toNat := by rw [hd.ascii _ hb, hd.ascii _ hf, List.map_append]
      have h2 : (decode f).length = f.length := by rw [hd.ascii _ hf]; simp
      rw [h2, h1, codes_bytes _ (fun c hc => (List.mem_append.mp hc).elim (hb c) (hf c))]
      split
      · exact ih
      · unfold okOf at ih ⊢
        simp only [List.filterMap_cons, ih]
    · have h1 : ∀ r, hexToBinCodes (decode base ++ decode f) ≠ .ok r :=
        fun r e => hf (hd.other f (fun c hc => codes_ok e c (List.mem_append_right _ hc)))
      have h2 : ∀ r, hexToBin (base ++ f) ≠ .ok r := fun r e => hf (fun c hc => hexToBin_ascii e c (List.mem_append_right _ hc))
      have e1 : okOf (if (decode f).length ≠ 38 then shaIterCodes (decode base) (fs.map decode)
          else hexToBinCodes (decode base ++ decode f) :: shaIterCodes (decode base) (fs.map decode)) =
          okOf (shaIterCodes (decode base) (fs.map decode)) := by
        split
        · rfl
        · rcases hh : hexToBinCodes (decode base ++ decode f) with e | r
          · rfl
          · exact absurd hh (h1 r)
      have e2 : okOf (if f.length ≠ 38 then shaIterFiles base fs else hexToBin (base ++ f) :: shaIterFiles base fs) =
          okOf (shaIterFiles base fs) := by
        split
        · rfl
        · rcases hh : hexToBin (base ++ f) with e | r
          · rfl
          · exact absurd hh (h2 r)
      rw [e1, e2, ih]

theorem okOf_append (a b : List (Res Bytes)) : okOf (a ++ b) = okOf a ++ okOf b := List.filterMap_append

theorem okOf_none {l : List (Res Bytes)} (h : ∀ r, .ok r ∉ l) : okOf l = [] := by
  unfold okOf
  rw [List.filterMap_eq_nil_iff]
  intro x hx
  rcases x with e | r
  · rfl
  · exact absurd hx (h r)

theorem codes_mem {base : List Nat} {x : Res Bytes} : ∀ {fs : List (List Nat)}, x ∈ shaIterCodes base fs → ∃ f, x = hexToBinCodes (base ++ f)
  | [], h => by cases h
  | f :: fs, h => by
    unfold shaIterCodes at h
    split at h
    · exact codes_mem h
    · rcases List.mem_cons.mp h with rfl | h
      · exact ⟨f, rfl⟩
      · exact codes_mem h

theorem files_mem {base : Bytes} {x : Res Bytes} : ∀ {fs : List Bytes}, x ∈ shaIterFiles base fs → ∃ f, x = hexToBin (base ++ f)
  | [], h => by cases h
  | f :: fs, h => by
    unfold shaIterFiles at h
    split at h
    · exact files_mem h
    · rcases List.mem_cons.mp h with rfl | h
      · exact ⟨f, rfl⟩
      · exact files_mem h

/-- **C98** names that are not ASCII never become names of objects: in whatever encoding the names of files are decoded, the objects found by
`sha_iter` are the same, in the same order, as when the names are taken as bytes.  Only the exceptions between them may differ; if there
are none, and if all names are ASCII, the iterations are the same. -/
theorem C98_files (hd : FsDecode decode) (walk : List (Bytes × List Bytes)) :
    okOf (shaIterText decode walk) = okOf (shaIter walk) ∧
    ((∀ d ∈ walk, (∀ c ∈ d.1, c.toNat < 128) ∧ ∀ f ∈ d.2, ∀ c ∈ f, c.toNat < 128) → shaIterText decode walk = shaIter walk) := by
  constructor
  · induction walk with
    | nil => rfl
    | cons d walk ih =>
      have e1 : shaIterText decode (d :: walk) =
          (if (decode d.1).length ≠ 2 then [] else shaIterCodes (decode d.1) (d.2.map decode)) ++ shaIterText decode walk := rfl
      have e2 : shaIter (d :: walk) = (if d.1.length ≠ 2 then [] else shaIterFiles d.1 d.2) ++ shaIter walk := rfl
      rw [e1, e2, okOf_append, okOf_append, ih]
      congr 1
      by_cases hb : ∀ c ∈ d.1, c.toNat < 128
      · have h2 : (decode d.1).length = d.1.length := by rw [hd.ascii _ hb]; simp
        rw [h2]
        split
        · rfl
        · exact files_ok hd hb d.2
      · rw [okOf_none, okOf_none]
        · intro r hr
          split at hr
          · cases hr
          · obtain ⟨f, e⟩ := files_mem hr
            exact hb (fun c hc => hexToBin_ascii e.symm c (List.mem_append_left _ hc))
        · intro r hr
          split at hr
          · cases hr
          · obtain ⟨f, e⟩ := codes_mem hr
            exact hb (hd.other _ fun c hc => codes_ok e.symm c (List.mem_append_left _ hc))
  · intro h
    unfold shaIterText shaIter
    have key : ∀ (base : Bytes), (∀ c ∈ base, c.toNat < 128) → ∀ fs : List Bytes, (∀ f ∈ fs, ∀ c ∈ f, c.toNat < 128) →
        shaIterCodes (decode base) (fs.map decode) = shaIterFiles base fs := by
      intro base hb fs
      induction fs with
      | nil => intro _; rfl
      | cons f fs ih =>
        intro hf
        have hf1 := hf f (by simp)
        have h1 : decode base ++ decode f = (base ++ f).map UInt8.toNat := by rw [hd.ascii _ hb, hd.ascii _ hf1, List.map_append]
        have h2 : (decode f).length = f.length := by rw [hd.ascii _ hf1]; simp
        simp only [List.map_cons, shaIterCodes, shaIterFiles]
        rw [h2, h1, codes_bytes _ (fun c hc => (List.mem_append.mp hc).elim (hb c) (hf1 c)), ih (fun f' h' => hf f' (by simp [h']))]
    induction walk with
    | nil => rfl
    | cons d walk ih =>
      obtain ⟨hb, hf⟩ := h d (by simp)
      have h2 : (decode d.1).length = d.1.length := by rw [hd.ascii _ hb]; simp
      rw [List.flatMap_cons, List.flatMap_cons, ih (fun d' h' => h d' (by simp [h'])), h2, key d.1 hb d.2 hf]

/-! ## Examples -/

/-- Names in UTF-8; the bytes of a name that is none become lone surrogates. -/
def utfDecode (b : Bytes) : List Nat :=
  match fromUtf8 b with
  | .ok s => s.map Char.toNat
  | .error _ => b.map fun c => if c.toNat < 128 then c.toNat else 0xdc00 + c.toNat

theorem utfDecode_ok : FsDecode utfDecode where
  ascii b h := by
    have h1 := C62_ascii b h
    simp only [forceText] at h1
    unfold utfDecode
    rw [h1]
    simp only [List.map_map]
    refine List.map_congr_left fun c hc => ?_
    have key : ∀ n < 128, (Char.ofNat n).toNat = n := by decide
    exact key _ (h c hc)
  other b h := by
    unfold utfDecode at h
    rcases hf : fromUtf8 b with e | s
    · rw [hf] at h
      intro c hc
      have := h _ (List.mem_map_of_mem hc)
      split at this
      · assumption
      · omega
    · rw [hf] at h
      have hs : AsciiText s := fun c hc => h _ (List.mem_map_of_mem hc)
      have hb : utf8 s = b := by
        have := (C62_text s b).2.1 hf
        simpa [forceBytes] using this
      rw [← hb, utf8_ascii hs]
      intro c hc
      obtain ⟨m, hm, rfl⟩ := List.mem_map.mp hc
      obtain ⟨x, hx, rfl⟩ := List.mem_map.mp hm
      have := hs x hx
      rw [UInt8.toNat_ofNat_of_lt' (by simp only [UInt8.size]; omega)]
      exact this

/-- A directory with the name `é` is skipped: it has one character.  With the name `éé` a file with a name of 38 characters raises
`ValueError`.  Taken as bytes it is the other way round.  The object of the directory `00` is found in any case. -/
example :
    shaIterText utfDecode [([0xc3, 0xa9], [List.replicate 38 0x30]), ([0x30, 0x30], [List.replicate 38 0x30])] = [.ok (List.replicate 20 0)] ∧
    shaIterText utfDecode [([0xc3, 0xa9, 0xc3, 0xa9], [List.replicate 38 0x30]), ([0x30, 0x30], [List.replicate 38 0x30])] =
      [.error .valueError, .ok (List.replicate 20 0)] ∧
    shaIter [([0xc3, 0xa9], [List.replicate 38 0x30]), ([0x30, 0x30], [List.replicate 38 0x30])] =
      [.error .binasciiError, .ok (List.replicate 20 0)] := by
  refine ⟨by decide +kernel, by decide +kernel, by decide +kernel⟩

/-- `"abc"`, `b"abc"`, `"é"`, the bytes of `"é"` and of nothing, `"xyz"`. -/
example (getL : Fs → Bytes → Res OStream) :
    let L := leafOps id (fun d db sha => db.stream 5 id d sha) getL
    let D := partDisk ⟨1, []⟩ (rootB ++ ['\n'])
    let f := fun arg => (liveCompleteText id L 2 D (freshNode 2 rootA) arg).2
    f (.str ['a', 'b', 'c']) = .ok ([0xab, 0xcd] ++ List.replicate 18 0) ∧
    f (.bytes [97, 98, 99]) = .ok ([0xab, 0xcd] ++ List.replicate 18 0) ∧
    f (.str ['é']) = .error .valueError ∧ f (.bytes [0xc3, 0xa9]) = .error .valueError ∧
    f (.bytes [0xff]) = .error .unicodeError ∧ f (.str ['x', 'y', 'z']) = .error .binasciiError := by
  intro L D f
  have hc : (liveCollect id 2 D (freshNode 2 rootA)).2 = .ok _ := rfl
  have key := fun arg => C98_live id L 2 D (freshNode 2 rootA) arg
  have hx : HexText ['a', 'b', 'c'] := by unfold HexText; decide
  have h1 : (liveComplete id L 2 D (freshNode 2 rootA) (utf8 ['a', 'b', 'c'])).2 = .ok ([0xab, 0xcd] ++ List.replicate 18 0) := rfl
  have hu : utf8 ['a', 'b', 'c'] = [97, 98, 99] := by decide
  have hu' : utf8 ['é'] = [0xc3, 0xa9] := by decide
  have hna : ¬ AsciiText ['é'] := by unfold AsciiText; decide
  have ha : AsciiText ['x', 'y', 'z'] := by unfold AsciiText; decide
  have hnx : ¬ HexText ['x', 'y', 'z'] := by unfold HexText; decide
  refine ⟨?_, ?_, ?_, ?_, ?_, ?_⟩
  · exact (congrArg Prod.snd ((key _).1 _ (.inl rfl) hx)).trans h1
  · exact (congrArg Prod.snd ((key _).1 _ (.inr (by rw [hu])) hx)).trans h1
  · exact congrArg Prod.snd (((key _).2.2 _ hc).2.1 _ (.inl rfl) hna)
  · exact congrArg Prod.snd (((key _).2.2 _ hc).2.1 _ (.inr (by rw [hu'])) hna)
  · refine congrArg Prod.snd (((key _).2.2 _ hc).2.2 fun s hs => ?_)
    have h2 := isText_force.mp hs
    have h3 : forceText (.bytes [0xff]) = .error .unicodeError := by decide +kernel
    rw [h3] at h2
    cases h2
  · exact congrArg Prod.snd (((key _).2.2 _ hc).1 _ (.inl rfl) ha hnx)

end GitDB.Props
