import Verif.Spec.Lists
import Verif.Model.Basic
/-!
# Specification of compound databases
-/
set_option autoImplicit false

namespace GitDB.Spec

/-- What a group of databases should answer when the members would answer `as`: the first answer that is not "no". -/
def firstAnswer : List (Bytes → Res Bool) → Bytes → Res Bool
  | [], _ => .ok false
  | a :: as, sha =>
    match a sha with
    | .ok false => firstAnswer as sha
    | r => r

/-- The member at position `i` is the first to answer yes, and those before it say no. -/
def FirstAt (as : List (Bytes → Res Bool)) (sha : Bytes) (i : Nat) : Prop :=
  ∃ a, as[i]? = some a ∧ a sha = .ok true ∧ ∀ j b, j < i → as[j]? = some b → b sha = .ok false

/-- What resolving an abbreviation should give when `M` are the names that start with it: the only one, `BadObject` if there is
none, `AmbiguousObjectName` if there are several; no other exceptions. -/
def Resolves (M : Bytes → Prop) : Res Bytes → Prop
  | .ok x => M x ∧ ∀ y, M y → y = x
  | .error .badObject => ∀ y, ¬ M y
  | .error .ambiguousObjectName => ∃ x y, x ≠ y ∧ M x ∧ M y
  | .error _ => False

end GitDB.Spec
