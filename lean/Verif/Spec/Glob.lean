import Verif.Model.Glob
import Verif.Spec.Lists
/-!
# Spec: file name patterns, and which directories a path stands for when it is read as a pattern
-/
set_option autoImplicit false

namespace GitDB.Spec

/-- The text between the brackets of a set: not empty (not counting a leading `!`), and a closing bracket can only be its
first character. -/
def IsSet (body : Text) : Prop :=
  (body.head? ≠ some '!' ∧ body ≠ [] ∧ ']' ∉ body.tail) ∨
  (∃ b, body = '!' :: b ∧ b ≠ [] ∧ ']' ∉ b.tail)

/-- A character belongs to a set if it is listed there, or not listed after a leading `!`.  With a hyphen the set has ranges,
whose meaning is left open. -/
def Belongs (range : Text → Char → Bool) (body : Text) (c : Char) : Prop :=
  ('-' ∈ body ∧ range body c = true) ∨
  ('-' ∉ body ∧ body.head? ≠ some '!' ∧ c ∈ body) ∨
  ('-' ∉ body ∧ ∃ b, body = '!' :: b ∧ c ∉ b)

/-- Shell patterns: `*` any text, `?` any character, `[…]` a character of a set; an opening bracket that opens no set and
every other character stand for themselves. -/
inductive ShellFits (range : Text → Char → Bool) : Text → Text → Prop where
  | nil : ShellFits range [] []
  | star (t : Text) {p s : Text} : ShellFits range p s → ShellFits range ('*' :: p) (t ++ s)
  | any (c : Char) {p s : Text} : ShellFits range p s → ShellFits range ('?' :: p) (c :: s)
  | set (body : Text) (c : Char) {p s : Text} : IsSet body → Belongs range body c → ShellFits range p s →
      ShellFits range ('[' :: (body ++ ']' :: p)) (c :: s)
  | open_ {p s : Text} : (∀ body q, IsSet body → p ≠ body ++ ']' :: q) → ShellFits range p s → ShellFits range ('[' :: p) ('[' :: s)
  | lit (c : Char) {p s : Text} : c ≠ '*' → c ≠ '?' → c ≠ '[' → ShellFits range p s → ShellFits range (c :: p) (c :: s)

/-- Which names a component of a path stands for: itself, or if it has special characters, those that fit; with a leading dot
only if it has one as well. -/
def Like (range : Text → Char → Bool) (p n : Text) : Prop :=
  if '*' ∈ p ∨ '?' ∈ p ∨ '[' ∈ p then
    ShellFits range p n ∧ (n.head? = some '.' → p.head? = some '.')
  else n = p

/-- `pack-*.pack`. -/
def PackName (n : Text) : Prop := ∃ mid, n = "pack-".toList ++ (mid ++ ".pack".toList)

/-- What holds in every file system: only directories have names in them, a directory is listed in the one above, and what
exists is what is listed. -/
structure TreeOk (t : Tree) : Prop where
  dir : ∀ c d, t.names (c :: d) ≠ [] → t.isDir (c :: d) = true
  listed : ∀ c d, t.isDir (c :: d) = true → c ∈ t.names d
  exist : ∀ c d, t.lexists (c :: d) = true ↔ c ∈ t.names d

end GitDB.Spec
