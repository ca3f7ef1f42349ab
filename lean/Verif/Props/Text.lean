import Verif.Model.Text
/-!
# C62: text and bytes; C63: recognising loose objects
-/
set_option autoImplicit false

namespace GitDB.Props
open GitDB

theorem utf8_array (s : List Char) : ByteArray.mk (utf8 s).toArray = s.utf8Encode := by
  apply ByteArray.ext
  simp [utf8, List.utf8Encode, List.data_toByteArray]

/-- **C62** text survives the conversion to bytes and back, and nothing else does: `force_text` gives `s` for
`bytes` exactly if they are its encoding. -/
theorem C62_text (s : List Char) (b : Bytes) :
    (∃ b', forceBytes (.str s) = .ok b' ∧ forceText (.bytes b') = .ok s) ∧
    (forceText (.bytes b) = .ok s ↔ forceBytes (.str s) = .ok b) := by
  have h1 : ∀ s, fromUtf8 (utf8 s) = .ok s := by
    intro s
    unfold fromUtf8
    rw [utf8_array, List.utf8Decode?_utf8Encode]
  refine ⟨⟨utf8 s, rfl, h1 s⟩, ?_, ?_⟩
  · intro h
    simp only [forceText, fromUtf8] at h
    split at h
    · rename_i a ha
      simp only [Except.ok.injEq] at h
      have hs : (ByteArray.mk b.toArray).utf8Decode?.isSome := by rw [ha]; rfl
      have := ByteArray.utf8Encode_get_utf8Decode? (b := ByteArray.mk b.toArray) (h := hs)
      simp only [ha, Option.get_some, h] at this
      rw [← utf8_array] at this
      simp only [forceBytes, Except.ok.injEq]
      have := congrArg (fun x => x.data.toList) this
      simpa using this
    · cases h
  · intro h
    simp only [forceBytes, Except.ok.injEq] at h
    subst h
    exact h1 s

/-- **C62** what already has the wanted type is not touched, whatever it contains. -/
theorem C62_idempotent (s : List Char) (b : Bytes) :
    forceBytes (.bytes b) = .ok b ∧ forceText (.str s) = .ok s := ⟨rfl, rfl⟩

/-- **C62** different texts never become the same bytes. -/
theorem C62_injective (s t : List Char) (h : forceBytes (.str s) = forceBytes (.str t)) : s = t := by
  have h1 := ((C62_text s (utf8 s)).2.2 rfl)
  have h2 := ((C62_text t (utf8 s)).2.2 (by simp only [forceBytes] at h; simp only [forceBytes, h]))
  rw [h1] at h2
  exact Except.ok.inj h2

/-- **C62** for ASCII - hex names, object types - bytes and characters correspond one to one, with the same
codes. -/
theorem C62_ascii (b : Bytes) (h : ∀ c ∈ b, c.toNat < 128) :
    forceText (.bytes b) = .ok (b.map fun c => Char.ofNat c.toNat) := by
  rw [(C62_text _ b).2]
  simp only [forceBytes, Except.ok.injEq, utf8]
  induction b with
  | nil => rfl
  | cons c b ih =>
    rw [List.map_cons, List.flatMap_cons, ih (fun x hx => h x (by simp [hx]))]
    have hc := h c (by simp)
    have : ∀ n < 128, String.utf8EncodeChar (Char.ofNat n) = [UInt8.ofNat n] := by decide
    rw [this _ hc]
    simp

/-- **C62** a byte is read the same from an item of a buffer and from a slice of length one. -/
theorem C62_byte_ord (x : UInt8) : byteOrd (.int x.toNat) = .int x.toNat ∧ byteOrd (.bytes [x]) = .int x.toNat :=
  ⟨rfl, rfl⟩

/-- **C62** anything else than one byte is returned as it is: no byte of a longer slice is taken for the whole. -/
theorem C62_byte_ord_other (b : Bytes) (h : b.length ≠ 1) : byteOrd (.bytes b) = .bytes b := by
  match b, h with
  | [], _ => rfl
  | [x], h => exact absurd rfl h
  | _ :: _ :: _, _ => rfl

example : byteOrd (.bytes [1, 2]) = .bytes [1, 2] := C62_byte_ord_other _ (by decide)

-- "é€😀" and a byte string which is no UTF-8
example : forceBytes (.str ['é', '€', '😀']) =
    .ok [0xc3, 0xa9, 0xe2, 0x82, 0xac, 0xf0, 0x9f, 0x98, 0x80] := by decide
example : forceText (.bytes [0xc3, 0xa9]) = .ok ['é'] := (C62_text _ _).2.2 (by decide)
example : forceText (.bytes [0xff]) = .error .unicodeError := by decide +kernel
example : forceText (.bytes [0xed, 0xa0, 0x80]) = .error .unicodeError := by decide +kernel

/-! ## C63 -/

/-- A zlib header for the format of loose objects (RFC 1950): the first byte is `0x78`, and the first two bytes, as
a number, are a multiple of 31. -/
def ZlibHeader (m : Bytes) : Prop :=
  ∃ f rest, m = 0x78 :: f :: rest ∧ 31 ∣ (0x78 * 256 + f.toNat)

/-- Full statement: `is_loose_object` tells for every file of at least two bytes whether it begins with a zlib
header. -/
def C63_full : Prop :=
  ∀ m : Bytes, 2 ≤ m.length → ∃ r, isLooseObject .python3 m = .ok r ∧ (r = true ↔ ZlibHeader m)

/-- **C63** with `ord` read as it was meant, for every file of at least two bytes.  (Missing for `C63_full`: in
Python 3 the function never returns, `C63_python3`.) -/
theorem C63_header_partial (m : Bytes) (h : 2 ≤ m.length) :
    ∃ r, isLooseObject .meant m = .ok r ∧ (r = true ↔ ZlibHeader m) := by
  match m, h with
  | a :: b :: rest, _ =>
    refine ⟨_, rfl, ?_⟩
    simp only [Bool.and_eq_true, decide_eq_true_eq, ZlibHeader]
    constructor
    · rintro ⟨h1, h2⟩
      have ha : a = 0x78 := UInt8.toNat_inj.1 h1
      subst ha
      exact ⟨b, rest, rfl, Nat.dvd_of_mod_eq_zero h2⟩
    · rintro ⟨f, r, e, hd⟩
      cases e
      exact ⟨rfl, Nat.mod_eq_zero_of_dvd hd⟩

/-- **C63** finding: in Python 3 there is no file for which `is_loose_object` returns anything. -/
theorem C63_python3 (m : Bytes) :
    isLooseObject .python3 m = .error (if m = [] then .valueError else .typeError) := by
  match m with
  | [] => rfl
  | [a] => rfl
  | a :: b :: rest => rfl

/-- **C63** is false as stated. -/
theorem C63_not_full : ¬ C63_full := by
  intro h
  obtain ⟨r, h1, _⟩ := h [0x78, 0x9c] (by decide)
  rw [C63_python3] at h1
  cases h1

-- the headers zlib writes for the levels used by git
example : ZlibHeader [0x78, 0x01] ∧ ZlibHeader [0x78, 0x9c, 5] ∧ ¬ ZlibHeader [0x78, 0x02] :=
  ⟨⟨0x01, [], rfl, by decide⟩, ⟨0x9c, [5], rfl, by decide⟩, by rintro ⟨f, r, e, h⟩; cases e; revert h; decide⟩
example : isLooseObject .meant [0x78, 0x9c, 5] = .ok true ∧ isLooseObject .meant [0x78, 0x02] = .ok false := by decide

end GitDB.Props
