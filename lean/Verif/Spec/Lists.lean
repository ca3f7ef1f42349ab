/-!
# Small list notions used in statements
-/
set_option autoImplicit false

namespace GitDB.Spec

/-- Two lists of the same length whose corresponding elements are related. -/
inductive All2 {α β : Type} (R : α → β → Prop) : List α → List β → Prop
  | nil : All2 R [] []
  | cons {a : α} {b : β} {l : List α} {m : List β} (h : R a b) (t : All2 R l m) :
      All2 R (a :: l) (b :: m)

end GitDB.Spec
