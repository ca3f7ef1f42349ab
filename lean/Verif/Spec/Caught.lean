import Verif.Model.Basic
/-!
# A caller that goes on after an exception
-/
set_option autoImplicit false

namespace GitDB.Spec

/-- The results of a sequence of read calls, the exceptions included. -/
def readEach {σ : Type} (read : σ → Int → σ × Res Bytes) : σ → List Int → List (Res Bytes)
  | _, [] => []
  | s, n :: ns => (read s n).2 :: readEach read (read s n).1 ns

end GitDB.Spec
