import Verif.Model.Alternates
/-!
# Listing the packs of a directory: `gitdb/db/pack.py` 149

`glob.glob(os.path.join(self.root_path(), "pack-*.pack"))` with the parts of Python's `glob` and `fnmatch` that this uses.
Simplification: the root path is absolute and has no empty components; it is given as its list of components, the last one first.
-/
set_option autoImplicit false

namespace GitDB

/-- A directory tree, as far as `glob` looks at it.  Paths are lists of components, last one first. (For `gitdb/db/pack.py` 149.) -/
structure Tree where
  /-- `os.scandir`: the names in a directory, in any order; none if it is not a directory -/
  names : List Text → List Text
  /-- `entry.is_dir()` -/
  isDir : List Text → Bool
  /-- `os.path.lexists` -/
  lexists : List Text → Bool

/-- `glob.has_magic`: one of `*?[` occurs. (For `gitdb/db/pack.py` 149.) -/
def hasMagic (p : Text) : Bool := p.any fun c => c == '*' || c == '?' || c == '['

/-- `glob._ishidden`. (For `gitdb/db/pack.py` 149.) -/
def isHidden (p : Text) : Bool := p.head? == some '.'

/-- What `fnmatch.translate` makes of a pattern. (For `gitdb/db/pack.py` 149.) -/
inductive Tok where
  /-- `.*` -/
  | star
  /-- `.` -/
  | any
  /-- `[…]` with the text in between -/
  | set (body : Text)
  | lit (c : Char)
  deriving DecidableEq, Repr

/-- Up to the next closing bracket, and what follows it; `pre` is put in front. (For `gitdb/db/pack.py` 149.) -/
def setUpTo (pre rest : Text) : Option (Text × Text) :=
  match rest.dropWhile (· != ']') with
  | [] => none
  | _ :: after => some (pre ++ rest.takeWhile (· != ']'), after)

/-- The text up to the closing bracket, which is not looked for at the first place, nor behind a `!` there; and what follows. (For `gitdb/db/pack.py` 149.) -/
def setBody (p : Text) : Option (Text × Text) :=
  match p with
  | '!' :: ']' :: rest => setUpTo ['!', ']'] rest
  | '!' :: rest => setUpTo ['!'] rest
  | ']' :: rest => setUpTo [']'] rest
  | rest => setUpTo [] rest

theorem setBody_length {p body after : Text} (h : setBody p = some (body, after)) : after.length < p.length := by
  have key : ∀ (pre rest : Text), setUpTo pre rest = some (body, after) → after.length < rest.length := by
    intro pre rest h
    unfold setUpTo at h
    have hl : (rest.dropWhile (· != ']')).length ≤ rest.length := (List.dropWhile_sublist _).length_le
    split at h
    · cases h
    · rename_i x a hd
      cases h
      rw [hd] at hl
      simp only [List.length_cons] at hl
      omega
  unfold setBody at h
  split at h <;> have := key _ _ h <;> simp_all <;> omega

/-- `fnmatch.translate`, with a bound for the length of the pattern; an opening bracket that is not closed stands for itself. (For `gitdb/db/pack.py` 149.) -/
def translateN : Nat → Text → List Tok
  | 0, _ => []
  | _ + 1, [] => []
  | n + 1, c :: p =>
    if c = '*' then .star :: translateN n p
    else if c = '?' then .any :: translateN n p
    else if c = '[' then
      match setBody p with
      | none => .lit '[' :: translateN n p
      | some (body, after) => .set body :: translateN n after
    else .lit c :: translateN n p

/-- `fnmatch.translate`. (For `gitdb/db/pack.py` 149.) -/
def translate (p : Text) : List Tok := translateN p.length p

/-- Does a character belong to `[body]`?  What `body` means if it contains a `-` is left open (`range`). (For `gitdb/db/pack.py` 149.) -/
def inSet (range : Text → Char → Bool) (body : Text) (c : Char) : Bool :=
  if body.contains '-' then range body c
  else
    match body with
    | '!' :: rest => !rest.contains c
    | _ => body.contains c

/-- Does some end of the text satisfy `f`? (For `gitdb/db/pack.py` 149.) -/
def anyEnd (f : Text → Bool) : Text → Bool
  | [] => f []
  | c :: s => f (c :: s) || anyEnd f s

/-- Matching the regular expression. (For `gitdb/db/pack.py` 149.) -/
def matchToks (range : Text → Char → Bool) : List Tok → Text → Bool
  | [], s => s.isEmpty
  | .star :: ts, s => anyEnd (matchToks range ts) s
  | .any :: ts, s =>
    match s with
    | [] => false
    | _ :: s => matchToks range ts s
  | .set body :: ts, s =>
    match s with
    | [] => false
    | c :: s => inSet range body c && matchToks range ts s
  | .lit x :: ts, s =>
    match s with
    | [] => false
    | c :: s => x == c && matchToks range ts s

/-- `fnmatch.fnmatch(name, pattern)`. (For `gitdb/db/pack.py` 149.) -/
def fnmatch (range : Text → Char → Bool) (pattern name : Text) : Bool := matchToks range (translate pattern) name

/-- `glob._glob1`: the names in a directory that match.  Names beginning with a dot count only if the pattern begins with one. (For `gitdb/db/pack.py` 149.) -/
def glob1 (range : Text → Char → Bool) (t : Tree) (dir : List Text) (pattern : Text) (dirOnly : Bool) : List Text :=
  (t.names dir).filter fun n =>
    (!dirOnly || t.isDir (n :: dir)) && (isHidden pattern || !isHidden n) && fnmatch range pattern n

/-- `glob._glob0`: a name without special characters, if it exists. (For `gitdb/db/pack.py` 149.) -/
def glob0 (t : Tree) (dir : List Text) (name : Text) : List Text := if t.lexists (name :: dir) then [name] else []

/-- `glob._iglob(dirname, dironly=True)` as it is called for the directory part of a pattern: only if that has special
characters; otherwise it is taken as it is. (For `gitdb/db/pack.py` 149.) -/
def globDirs (range : Text → Char → Bool) (t : Tree) : List Text → List (List Text)
  | [] => [[]]
  | c :: up =>
    if (c :: up).any hasMagic = false then [c :: up]
    else
      (globDirs range t up).flatMap fun d =>
        ((if hasMagic c then glob1 range t d c true else glob0 t d c).map (· :: d))

/-- `pack-*.pack`. (For `gitdb/db/pack.py` 149.) -/
def packPattern : Text := "pack-*.pack".toList

/-- `glob.glob(os.path.join(root, "pack-*.pack"))`, `gitdb/db/pack.py` 149. -/
def globPacks (range : Text → Char → Bool) (t : Tree) (root : List Text) : List (List Text) :=
  (globDirs range t root).flatMap fun d => (glob1 range t d packPattern false).map (· :: d)

end GitDB
