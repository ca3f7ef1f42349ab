import Verif.Model.Basic
/-!
# Specification of hexadecimal names and decimal numbers
-/
set_option autoImplicit false

namespace GitDB.Spec

/-- The hex digits (as numbers) of a byte string, most significant first. -/
def nibbles (b : Bytes) : List Nat := b.flatMap fun x => [x.toNat / 16, x.toNat % 16]

/-- ASCII code of a lower case hex digit. -/
def hexAscii : List UInt8 := [48, 49, 50, 51, 52, 53, 54, 55, 56, 57, 97, 98, 99, 100, 101, 102]

/-- `h` is the lower case hex representation of the binary string `b`: two characters per byte,
spelling out its nibbles. -/
def IsHexOf (h b : Bytes) : Prop := h.map some = (nibbles b).map (hexAscii[·]?)

/-- All characters are lower case hex digits. -/
def LowerHex (h : Bytes) : Prop := ∀ c ∈ h, c ∈ hexAscii

/-- Value of a string of ASCII decimal digits. -/
def decValue (ds : Bytes) : Nat := ds.foldl (fun a d => 10 * a + (d.toNat - 48)) 0

/-- `ds` is the canonical decimal representation of `n`. -/
def IsDecimal (ds : Bytes) (n : Nat) : Prop :=
  (∀ d ∈ ds, 48 ≤ d.toNat ∧ d.toNat ≤ 57) ∧ decValue ds = n ∧ ds ≠ [] ∧
    (ds.head? = some 48 → ds = [48])

/-- The name begins with these hex digits. -/
def HasDigits (digits : List Nat) (name : Bytes) : Prop := (nibbles name).take digits.length = digits

/-- `part` is the binary form of an abbreviation: its digits, and a zero if their number is odd. -/
def IsAbbrev (part : Bytes) (digits : List Nat) : Prop :=
  nibbles part = digits ++ List.replicate (digits.length % 2) 0

instance (digits : List Nat) (name : Bytes) : Decidable (HasDigits digits name) :=
  inferInstanceAs (Decidable (_ = _))

instance (part : Bytes) (digits : List Nat) : Decidable (IsAbbrev part digits) :=
  inferInstanceAs (Decidable (_ = _))

end GitDB.Spec
