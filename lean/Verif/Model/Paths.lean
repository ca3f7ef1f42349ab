import Verif.Model.Fs
import Verif.Model.Names
/-!
# Path strings of loose objects: `gitdb/db/base.py` 124-132, `gitdb/db/loose.py` 86-106, 169-175

`Model/Loose.lean` describes paths by their components.  Here they are the strings the code computes,
and looking one up walks the directory tree as the operating system does.

Simplifications: POSIX paths; no symbolic links; text is identified with its UTF-8 bytes; searching a directory is
always permitted.
-/
set_option autoImplicit false

namespace GitDB

/-- `os.path.join(a, b)` (`posixpath`). -/
def pathJoin (a b : Bytes) : Bytes :=
  if b.head? = some 0x2f then b
  else if a = [] ∨ a.getLast? = some 0x2f then a ++ b
  else a ++ [0x2f] ++ b

/-- `object_path(hexsha)`, `gitdb/db/loose.py` 86-90. -/
def objectPathStr (hexsha : Bytes) : Bytes := pathJoin (hexsha.take 2) (hexsha.drop 2)

/-- `db_path(rela_path)`, `gitdb/db/base.py` 128-132. -/
def dbPathStr (root rela : Bytes) : Bytes := pathJoin root rela

/-- The components of a path string: the pieces between slashes. -/
def splitSlash : Bytes → List Bytes
  | [] => [[]]
  | c :: t =>
    if c = 0x2f then [] :: splitSlash t
    else
      match splitSlash t with
      | [] => [[c]]
      | p :: ps => (c :: p) :: ps

/-- Path resolution by the operating system: every component is looked up in a directory; empty components
and `.` stay there, `..` goes up. -/
def walk (fs : Fs) : Path → List Bytes → Option Path
  | cur, [] => if (fs cur).isSome then some cur else none
  | cur, c :: cs =>
    if fs cur = some .dir then
      walk fs (if c = [] ∨ c = [0x2e] then cur else if c = [0x2e, 0x2e] then cur.dropLast else cur ++ [c]) cs
    else none

/-- What a path string denotes; relative ones start at the current directory.  The empty path denotes
nothing. -/
def lookupPath (fs : Fs) (cwd : Path) (s : Bytes) : Option Path :=
  if s = [] then none
  else if s.head? = some 0x2f then walk fs [] (splitSlash s)
  else walk fs cwd (splitSlash s)

/-- `os.path.exists(path)`. -/
def pathExists (fs : Fs) (cwd : Path) (s : Bytes) : Bool := (lookupPath fs cwd s).isSome

/-- `readable_db_object_path(hexsha)`, `gitdb/db/loose.py` 92-106, of a database which has not looked up
anything yet. -/
def readablePathStr (fs : Fs) (cwd : Path) (root hexsha : Bytes) : Res Bytes :=
  let path := dbPathStr root (objectPathStr hexsha)
  if pathExists fs cwd path then .ok path else .error .badObject

/-- `has_object(sha)`, `gitdb/db/loose.py` 169-175, of such a database. -/
def hasObjectStr (fs : Fs) (cwd : Path) (root sha : Bytes) : Bool :=
  match readablePathStr fs cwd root (binToHex sha) with
  | .ok _ => true
  | .error _ => false

end GitDB
