import Verif.Model.Fs
import Verif.Model.Writers
import Verif.Spec.Zip
import Verif.Spec.Names
/-!
# Specification: a directory of loose objects
-/
set_option autoImplicit false

namespace GitDB.Spec

/-- `data` is a complete compressed stream, and the hex name is the SHA-1 of what it contains. -/
def CompleteObject (H : Hash) (zl : Zlib) (hex data : Bytes) : Prop :=
  ∃ x, IsZip zl data data.length x ∧ IsHexOf hex (H.digest x)

/-- Every file in a directory below the root is a complete object; its name is spelled by directory and
file name. -/
def ObjectsComplete (H : Hash) (zl : Zlib) (fs : Fs) : Prop :=
  ∀ d f data m, fs [d, f] = some (.file data m) → CompleteObject H zl (d ++ f) data

/-- There is a file at the path. -/
def IsFile (fs : Fs) (p : Path) : Prop := ∃ data m, fs p = some (.file data m)

/-- The loose object format: type, blank, size in decimal, NUL, data. -/
def IsObject (x ty data : Bytes) : Prop := ∃ ds, IsDecimal ds data.length ∧ x = ty ++ [0x20] ++ ds ++ [0] ++ data

/-- The path of an object: two hex digits name the directory, the rest the file. -/
def IsPathOf (p : Path) (name : Bytes) : Prop := ∃ h, IsHexOf h name ∧ p = [h.take 2, h.drop 2]

/-- What `os.walk` yields on the tree below the root: every directory once, with the names of its
files, each once. -/
structure IsWalk (fs : Fs) (walk : List (Path × List Bytes)) : Prop where
  once : (walk.map Prod.fst).Nodup
  dirs : ∀ p, p ∈ walk.map Prod.fst ↔ p = [] ∨ fs p = some .dir
  files_once : ∀ w ∈ walk, w.2.Nodup
  files : ∀ w ∈ walk, ∀ f, f ∈ w.2 ↔ IsFile fs (w.1 ++ [f])

/-- The layout of an object directory: only directories directly below the root have names of length two,
and files with names of length 38 in them have names in lower case hex.  `base`: name of the root. -/
structure ObjectLayout (base : Bytes) (fs : Fs) : Prop where
  root : base.length ≠ 2
  depth : ∀ p d, fs (p ++ [d]) = some .dir → d.length = 2 → p = []
  hex : ∀ d f, fs [d] = some .dir → d.length = 2 → IsFile fs [d, f] → f.length = 38 → LowerHex (d ++ f)

/-- The database contains an object with this name. -/
def Contains (fs : Fs) (name : Bytes) : Prop :=
  ∃ p, IsPathOf p name ∧ IsFile fs p ∧ fs p.dropLast = some .dir

end GitDB.Spec
