import Verif.Model.Messages
import Verif.Props.Names
/-!
# C58: messages of exceptions
-/
set_option autoImplicit false

namespace GitDB.Props
open GitDB Spec

/-- The characters of an ASCII string. -/
def asciiText (b : Bytes) : List Char := b.map fun c => Char.ofNat c.toNat

/-- Full statement: the message of `BadObject` for an object name - binary, or hex digits as `bytes` or `str`,
complete or abbreviated - is `BadObject: ` and the hex digits. -/
def C58_full : Prop :=
  (∀ n : Bytes, n.length = 20 → ∃ h, IsHexOf h n ∧
    badObjectStr [.bytes n] = .ok ("BadObject: ".toList ++ asciiText h)) ∧
  ∀ h : Bytes, LowerHex h → 4 ≤ h.length → h.length ≤ 40 →
    badObjectStr [.bytes h] = .ok ("BadObject: ".toList ++ asciiText h) ∧
    badObjectStr [.str (asciiText h)] = .ok ("BadObject: ".toList ++ asciiText h)

theorem escapeByte_hex : ∀ c ∈ hexAscii, escapeByte 0x27 c = [Char.ofNat c.toNat] := by decide

theorem reprBytes_hex (h : Bytes) (hh : LowerHex h) : reprBytes h = "b'".toList ++ asciiText h ++ "'".toList := by
  have hq : ¬ ((0x27 : UInt8) ∈ h ∧ (0x22 : UInt8) ∉ h) := fun hc => absurd (hh _ hc.1) (by decide)
  have hf : h.flatMap (escapeByte 0x27) = asciiText h := by
    clear hq
    induction h with
    | nil => rfl
    | cons c h ih =>
      rw [List.flatMap_cons, escapeByte_hex c (hh c (by simp)), ih (fun x hx => hh x (by simp [hx]))]
      rfl
  simp only [reprBytes, if_neg hq, hf]
  rfl

theorem badObjectStr_bytes (b : Bytes) (rest : List PyText) : badObjectStr (.bytes b :: rest) =
    .ok ("BadObject: ".toList ++ reprBytes (if b.length = 40 then b else binToHex b)) := by
  by_cases h : b.length = 40
  · simp [badObjectStr, toHexShaText, PyText.len, h, bind, Except.bind, pure, Except.pure, PyText.format]
  · simp [badObjectStr, toHexShaText, PyText.len, h, bind, Except.bind, pure, Except.pure, PyText.format]

/-- **C58** for a binary name the message consists of `BadObject: `, the 40 hex digits of the name, and the
decoration `b'…'` around them, whatever other arguments the exception has.  (Missing for `C58_full`: the
decoration.) -/
theorem C58_binary_partial (n : Bytes) (hn : n.length = 20) (rest : List PyText) :
    ∃ h, IsHexOf h n ∧ h.length = 40 ∧
      badObjectStr (.bytes n :: rest) = .ok ("BadObject: b'".toList ++ asciiText h ++ "'".toList) := by
  obtain ⟨h1, h2, _⟩ := C05_codec_inverse n
  refine ⟨binToHex n, h1, by rw [binToHex_length]; omega, ?_⟩
  rw [badObjectStr_bytes, if_neg (by omega), reprBytes_hex _ h2]
  rfl

/-- **C58** the same message is given for the complete hex name as `bytes`, the type produced by
`bin_to_hex`; for the hex name as `str` there is no decoration. -/
theorem C58_hex_partial (n : Bytes) (hn : n.length = 20) (rest : List PyText) (h : Bytes) (hh : IsHexOf h n) :
    badObjectStr (.bytes h :: rest) = badObjectStr (.bytes n :: rest) ∧
    badObjectStr (.str (asciiText h) :: rest) = .ok ("BadObject: ".toList ++ asciiText h) := by
  have e : h = binToHex n := by
    have h1 := binToHex_isHexOf n
    unfold IsHexOf at hh h1
    rw [← h1] at hh
    exact List.map_inj_right (fun a b hab => Option.some.inj hab) |>.1 hh
  have hl : h.length = 40 := by rw [e, binToHex_length]; omega
  constructor
  · rw [badObjectStr_bytes, badObjectStr_bytes, if_pos hl, if_neg (by omega), e]
  · simp [badObjectStr, toHexShaText, PyText.len, asciiText, hl, bind, Except.bind, pure, Except.pure,
      PyText.format]

theorem asciiText_inj {a b : Bytes} (h : asciiText a = asciiText b) : a = b := by
  refine (List.map_inj_right (f := fun c : UInt8 => Char.ofNat c.toNat) ?_).1 h
  have hc : ∀ c : UInt8, (Char.ofNat c.toNat).toNat = c.toNat := by
    intro c
    have := c.toNat_lt
    have hv : c.toNat.isValidChar := Or.inl (by omega)
    rw [Char.ofNat, dif_pos hv]
    rfl
  intro x y hxy
  have := congrArg Char.toNat hxy
  simp only [hc] at this
  exact UInt8.toNat_inj.1 this

/-- **C58** the message identifies the object: different binary names have different messages. -/
theorem C58_identifies (a b : Bytes) (ha : a.length = 20) (hb : b.length = 20) (ra rb : List PyText)
    (h : badObjectStr (.bytes a :: ra) = badObjectStr (.bytes b :: rb)) : a = b := by
  rw [badObjectStr_bytes, badObjectStr_bytes, if_neg (by omega), if_neg (by omega),
    reprBytes_hex _ (C05_codec_inverse a).2.1, reprBytes_hex _ (C05_codec_inverse b).2.1] at h
  simp only [Except.ok.injEq, List.append_assoc, List.append_cancel_left_eq] at h
  have h' := asciiText_inj (List.append_cancel_right h)
  have := congrArg hexToBin h'
  rw [hexToBin_binToHex, hexToBin_binToHex] at this
  exact Except.ok.inj this

/-- **C58** formatting never fails for `bytes`, whatever their length and content. -/
theorem C58_bytes_total (b : Bytes) (rest : List PyText) : ∃ s, badObjectStr (.bytes b :: rest) = .ok s :=
  ⟨_, badObjectStr_bytes b rest⟩

/-- **C58** every abbreviated name given as `str` - as `partial_to_complete_sha_hex` raises it,
`gitdb/db/loose.py` 122 - makes the formatting of the exception itself fail. -/
theorem C58_abbreviation_str (s : List Char) (h : s.length ≠ 40) (rest : List PyText) :
    badObjectStr (.str s :: rest) = .error .typeError := by
  simp [badObjectStr, toHexShaText, PyText.len, h, bind, Except.bind]

/-- **C58** an abbreviation of 20 hex digits given as `bytes` is shown as the complete name of another
object, the one whose binary name is the text of the abbreviation (and which does not begin with the
abbreviation, except possibly if that begins with a 3). -/
theorem C58_abbreviation_bytes (h : Bytes) (hl : h.length = 20) (hh : LowerHex h)
    (h3' : h.head? ≠ some 0x33) :
    ∃ d, IsHexOf d h ∧ d.length = 40 ∧ d.take 20 ≠ h ∧
      badObjectStr [.bytes h] = .ok ("BadObject: b'".toList ++ asciiText d ++ "'".toList) := by
  obtain ⟨d, h1, h2, h3⟩ := C58_binary_partial h hl []
  refine ⟨d, h1, h2, ?_, h3⟩
  -- the first digit shown is 3 or 6, the upper half of the code of an ASCII digit
  intro e
  have hd : d = binToHex h := by
    have h0 := binToHex_isHexOf h
    unfold IsHexOf at h1 h0
    rw [← h0] at h1
    exact List.map_inj_right (fun a b hab => Option.some.inj hab) |>.1 h1
  match h, hl with
  | a :: rest, hl =>
    have ka : a ∈ hexAscii := hh a (by simp)
    rw [hd] at e
    simp only [binToHex, List.take_succ_cons, List.cons.injEq] at e
    have : ∀ a ∈ hexAscii, a ≠ 0x33 → hexDigit (a.toNat / 16) ≠ a := by decide
    exact this a ka (by simpa using h3') e.1

/-- **C58** is false as stated: a binary name is shown with the decoration of `bytes`. -/
theorem C58_not_full : ¬ C58_full := by
  rintro ⟨_, h⟩
  have h1 := (h [0x61, 0x62, 0x63, 0x64] (by unfold LowerHex; decide) (by decide) (by decide)).2
  rw [C58_abbreviation_str _ (by decide)] at h1
  cases h1

/-- **C58** the message of `BadName` contains the name as it was given if it is a `str`, and formatting never
fails for `str` and `bytes`. -/
theorem C58_bad_name (x : PyText) (rest : List PyText) :
    ∃ t, badNameStr (x :: rest) = .ok ("Ref '".toList ++ t ++ "' did not resolve to an object".toList) ∧
      ∀ s, x = .str s → t = s := by
  refine ⟨x.format, rfl, ?_⟩
  rintro s rfl
  rfl

/-- The value of a lower case hex digit. -/
def charHexVal (c : Char) : Nat := if c.toNat < 58 then c.toNat - 48 else c.toNat - 87

/-- What an escape sequence stands for. -/
def unescape : List Char → Nat
  | [c] => c.toNat
  | ['\\', c] => if c = 't' then 9 else if c = 'n' then 10 else if c = 'r' then 13 else c.toNat
  | ['\\', _, a, b] => 16 * charHexVal a + charHexVal b
  | _ => 0

/-- The length of the escape sequence beginning with these characters. -/
def escapeLen (s : List Char) : Nat :=
  if s.head? = some '\\' then (if s[1]? = some 'x' then 4 else 2) else 1

theorem escapes_read : ∀ c : Fin 256, ∀ q ∈ [(0x27 : UInt8), 0x22],
    unescape (escapeByte q (UInt8.ofNat c)) = c ∧
    escapeLen (escapeByte q (UInt8.ofNat c)) = (escapeByte q (UInt8.ofNat c)).length := by decide +kernel

theorem escapeLen_append {s t : List Char} (h : escapeLen s = s.length) : escapeLen (s ++ t) = escapeLen s := by
  unfold escapeLen at *
  rcases s with _ | ⟨a, _ | ⟨b, s⟩⟩
  · simp at h
  · by_cases ha : a = '\\'
    · subst ha; simp at h
    · simp [ha]
  · simp

/-- No escape sequence begins another one. -/
theorem escape_prefix {q c d : UInt8} (hq : q = 0x27 ∨ q = 0x22) (h : escapeByte q c <+: escapeByte q d) : c = d := by
  have key : ∀ c : UInt8, unescape (escapeByte q c) = c.toNat ∧ escapeLen (escapeByte q c) = (escapeByte q c).length := by
    intro c
    have := escapes_read ⟨c.toNat, c.toNat_lt⟩ q (by rcases hq with rfl | rfl <;> simp)
    simpa only [UInt8.ofNat_toNat] using this
  obtain ⟨t, ht⟩ := h
  have hl : (escapeByte q d).length = (escapeByte q c).length := by
    rw [← (key d).2, ← ht, escapeLen_append (key c).2, (key c).2]
  have : escapeByte q c = escapeByte q d := by
    rw [← ht] at hl ⊢
    have : t = [] := List.length_eq_zero_iff.1 (by rw [List.length_append] at hl; omega)
    rw [this, List.append_nil]
  apply UInt8.toNat_inj.1
  rw [← (key c).1, ← (key d).1, this]

theorem escapes_inj {q : UInt8} (hq : q = 0x27 ∨ q = 0x22) : ∀ {a b : Bytes} {e : Char}, e = asciiChar q →
    a.flatMap (escapeByte q) ++ [e] = b.flatMap (escapeByte q) ++ [e] → a = b
  | [], [], _, _, _ => rfl
  | [], d :: b, e, he, h => by
    exfalso
    have hl := congrArg List.length h
    have h0 : (escapeByte q d).length ≠ 0 := by
      unfold escapeByte
      repeat' split
      all_goals simp
    simp at hl; omega
  | c :: a, [], e, he, h => by
    exfalso
    have hl := congrArg List.length h
    have h0 : (escapeByte q c).length ≠ 0 := by
      unfold escapeByte
      repeat' split
      all_goals simp
    simp at hl; omega
  | c :: a, d :: b, e, he, h => by
    simp only [List.flatMap_cons, List.append_assoc] at h
    have hcd : c = d := by
      rcases List.append_eq_append_iff.1 h with ⟨t, h1, -⟩ | ⟨t, h1, -⟩
      · exact escape_prefix hq ⟨t, h1.symm⟩
      · exact (escape_prefix hq ⟨t, h1.symm⟩).symm
    subst hcd
    rw [escapes_inj hq he (List.append_cancel_left h)]

theorem reprBytes_inj {a b : Bytes} (h : reprBytes a = reprBytes b) : a = b := by
  have hq : ∀ x : Bytes, ∃ q : UInt8, (q = 0x27 ∨ q = 0x22) ∧
      reprBytes x = 'b' :: asciiChar q :: (x.flatMap (escapeByte q) ++ [asciiChar q]) := by
    intro x
    by_cases hx : 0x27 ∈ x ∧ (0x22 : UInt8) ∉ x
    · exact ⟨0x22, Or.inr rfl, by simp only [reprBytes, if_pos hx]; rfl⟩
    · exact ⟨0x27, Or.inl rfl, by simp only [reprBytes, if_neg hx]; rfl⟩
  obtain ⟨q, h1, e1⟩ := hq a
  obtain ⟨r, h2, e2⟩ := hq b
  rw [e1, e2] at h
  simp only [List.cons.injEq, true_and] at h
  have hqr : q = r := by
    have := h.1
    rcases h1 with rfl | rfl <;> rcases h2 with rfl | rfl
    · rfl
    · exact absurd this (by decide)
    · exact absurd this (by decide)
    · rfl
  subst hqr
  exact escapes_inj h1 rfl h.2

/-- **C58** also a name that is no hex text at all is identified by its message: `BadName` for different `bytes` gives
different messages, and so does `BadObject` for different `bytes` that are 40 long, or both not. -/
theorem C58_identifies_any (a b : Bytes) (ra rb : List PyText) :
    (badNameStr (.bytes a :: ra) = badNameStr (.bytes b :: rb) → a = b) ∧
    ((a.length = 40 ↔ b.length = 40) → badObjectStr (.bytes a :: ra) = badObjectStr (.bytes b :: rb) → a = b) := by
  constructor
  · intro h
    simp only [badNameStr, PyText.format, Except.ok.injEq, List.append_assoc, List.append_cancel_left_eq] at h
    exact reprBytes_inj (List.append_cancel_right h)
  · intro hl h
    rw [badObjectStr_bytes, badObjectStr_bytes] at h
    simp only [Except.ok.injEq, List.append_cancel_left_eq] at h
    have h := reprBytes_inj h
    by_cases ha : a.length = 40
    · rw [if_pos ha, if_pos (hl.1 ha)] at h; exact h
    · rw [if_neg ha, if_neg (fun hb => ha (hl.2 hb))] at h
      have := congrArg hexToBin h
      rw [hexToBin_binToHex, hexToBin_binToHex] at this
      exact Except.ok.inj this

/-- **C58** a byte that is not printable is shown as backslash, `x` and its two hex digits; tab, newline and carriage return
have their own letters. -/
theorem C58_unprintable (c : UInt8) (h : c.toNat < 32 ∨ 127 ≤ c.toNat) (ht : c ≠ 9) (hn : c ≠ 10) (hr : c ≠ 13) (d : Bytes)
    (hd : IsHexOf d [c]) : badNameStr [.bytes [c]] =
      .ok ("Ref 'b'\\x".toList ++ asciiText d ++ "'' did not resolve to an object".toList) := by
  have e : d = binToHex [c] := by
    have h1 := binToHex_isHexOf [c]
    unfold IsHexOf at hd h1
    rw [← h1] at hd
    exact List.map_inj_right (fun a b hab => Option.some.inj hab) |>.1 hd
  subst e
  have key : ∀ c : Fin 256, (c.val < 32 ∨ 127 ≤ c.val) → UInt8.ofNat c ≠ 9 → UInt8.ofNat c ≠ 10 → UInt8.ofNat c ≠ 13 →
      badNameStr [.bytes [UInt8.ofNat c]] =
      .ok ("Ref 'b'\\x".toList ++ asciiText (binToHex [UInt8.ofNat c]) ++ "'' did not resolve to an object".toList) := by
    decide +kernel
  have := key ⟨c.toNat, c.toNat_lt⟩
  simp only [UInt8.ofNat_toNat] at this
  exact this h ht hn hr

example := C58_unprintable 0xe9 (by decide) (by decide) (by decide) (by decide) [0x65, 0x39] (by unfold IsHexOf; decide)

example : badObjectStr [.bytes (List.replicate 20 0xa7)] =
    .ok "BadObject: b'a7a7a7a7a7a7a7a7a7a7a7a7a7a7a7a7a7a7a7a7'".toList := by decide
example : badObjectStr [.str "a7a7a7a7a7a7a7a7a7a7a7a7a7a7a7a7a7a7a7a7".toList] =
    .ok "BadObject: a7a7a7a7a7a7a7a7a7a7a7a7a7a7a7a7a7a7a7a7".toList := by decide
example : badObjectStr [.str "a7a7".toList] = .error .typeError := by decide
example : badObjectStr [.bytes [0x61, 0x37]] = .ok "BadObject: b'6137'".toList := by decide
example : reprBytes [0x27, 0x41, 0x00, 0x0a, 0x5c] = "b\"'A\\x00\\n\\\\\"".toList := by decide
example : badNameStr [.str "HEAD~3".toList] = .ok "Ref 'HEAD~3' did not resolve to an object".toList := by decide

end GitDB.Props
