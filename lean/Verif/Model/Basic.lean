/-!
# Basic vocabulary of the model

Python `bytes` are lists of `UInt8`, Python `int`s are `Nat` (or `Int` where negative values can
occur), exceptions are values of type `Err`.
-/
set_option autoImplicit false

namespace GitDB

/-- Python `bytes` / `bytearray` / `memoryview` / mapped memory. -/
abbrev Bytes := List UInt8

/-- Python exceptions that the modelled code can raise.  The exception classes of gitdb are those of
`gitdb/exc.py` 1-57; `diverge` is not an exception: it marks that the fuel given to a
loop ran out (used to speak about loops that need not terminate). -/
inductive Err where
  | indexError | valueError | assertionError | typeError | keyError | attributeError
  | structError | unicodeError | binasciiError | overflowError
  | osError | fileNotFound | permissionError
  | zlibError
  | badObject | ambiguousObjectName | unsupportedOperation | parseError | invalidDBRoot
  | diverge
  deriving DecidableEq, Repr

/-- Result of a Python call: a value or an exception. -/
abbrev Res (α : Type) := Except Err α

/-- Outcomes can be compared; used only to evaluate concrete examples. -/
instance {ε α : Type} [DecidableEq ε] [DecidableEq α] : DecidableEq (Except ε α)
  | .ok a, .ok b => if h : a = b then isTrue (by rw [h]) else isFalse (by simpa using h)
  | .error a, .error b => if h : a = b then isTrue (by rw [h]) else isFalse (by simpa using h)
  | .ok _, .error _ => isFalse (by simp)
  | .error _, .ok _ => isFalse (by simp)

/-- Python slice `b[i:j]` for non negative `i`, `j`. -/
def pySlice {α : Type} (b : List α) (i j : Nat) : List α := (b.drop i).take (j - i)

/-- Python indexing `b[i]` for non negative `i`: `IndexError` outside. -/
def pyIndex (b : Bytes) (i : Nat) : Res Nat :=
  match b[i]? with
  | some x => .ok x.toNat
  | none => .error .indexError

/-- Python `assert`. -/
def pyAssert (b : Bool) : Res Unit := if b then .ok () else .error .assertionError

end GitDB
