import Verif.Spec.Lists
/-!
# Specification of alternates files
-/
set_option autoImplicit false

namespace GitDB.Spec

/-- The characters which end a line. -/
def LineEnd (c : Char) : Prop := c.toNat ∈ [10, 11, 12, 13, 28, 29, 30, 133, 8232, 8233]

/-- White space (Unicode). -/
def Blank (c : Char) : Prop :=
  c.toNat ∈ [9, 10, 11, 12, 13, 28, 29, 30, 31, 32, 133, 160, 5760, 8192, 8193, 8194, 8195, 8196, 8197, 8198, 8199, 8200, 8201, 8202,
    8232, 8233, 8239, 8287, 12288]

/-- The text consists of these lines.  The last one may lack its end; `\r\n` counts as one end. -/
inductive IsLines : List Char → List (List Char) → Prop
  | nil : IsLines [] []
  | last (l : List Char) (h : l ≠ []) (hl : ∀ c ∈ l, ¬ LineEnd c) : IsLines l [l]
  | crlf (l r : List Char) (ls : List (List Char)) (hl : ∀ c ∈ l, ¬ LineEnd c) (h : IsLines r ls) :
      IsLines (l ++ ['\r', '\n'] ++ r) (l :: ls)
  | line (l : List Char) (c : Char) (r : List Char) (ls : List (List Char)) (hl : ∀ c ∈ l, ¬ LineEnd c) (hc : LineEnd c)
      (hn : ¬ (c = '\r' ∧ r.head? = some '\n')) (h : IsLines r ls) : IsLines (l ++ [c] ++ r) (l :: ls)

/-- `p` is `l` without white space at its ends. -/
def Trimmed (l p : List Char) : Prop :=
  ∃ a b, l = a ++ p ++ b ∧ (∀ c ∈ a, Blank c) ∧ (∀ c ∈ b, Blank c) ∧
    (∀ c, p.head? = some c → ¬ Blank c) ∧ ∀ c, p.getLast? = some c → ¬ Blank c

/-- A file with these paths, one per line. -/
def Alternates (t : List Char) (paths : List (List Char)) : Prop :=
  ∃ ls, IsLines t ls ∧ All2 Trimmed ls paths

end GitDB.Spec
