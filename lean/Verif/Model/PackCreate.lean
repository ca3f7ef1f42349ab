import Verif.Model.PackedDB
import Verif.Model.Writers
import Verif.Model.Fs
/-!
# `PackEntity.create`: `gitdb/pack.py` 1006-1029
-/
set_option autoImplicit false

namespace GitDB

variable {σ : Type}

/-- Decisions of the operating system during `create`: the random parts of the temporary names (`none`: `mkstemp` fails),
what happens to the writes, whether closing and renaming succeed. -/
structure CreateEnv where
  packTmp : Option Bytes
  idxTmp : Option Bytes
  packPlan : List WriteOutcome := []
  idxPlan : List WriteOutcome := []
  close1 : Bool := true
  close2 : Bool := true
  rename1 : Bool := true
  rename2 : Bool := true

/-- `tempfile.mkstemp('', 'pack', base_dir)` and `tempfile.mkstemp('', 'index', base_dir)`, `gitdb/pack.py` 1014-1015. -/
def packTmpPath (rnd : Bytes) : Path := [[0x70, 0x61, 0x63, 0x6b] ++ rnd]
def idxTmpPath (rnd : Bytes) : Path := [[0x69, 0x6e, 0x64, 0x65, 0x78] ++ rnd]

/-- `"pack-%s.%s" % (bin_to_hex(sha), 'pack')`, `gitdb/pack.py` 1023-1024.  `bin_to_hex` returns `bytes`, which Python 3
formats as `b'...'`. -/
def newPackName (sha : Bytes) : Bytes := packPrefix ++ [0x62, 0x27] ++ binToHex sha ++ [0x27] ++ packSuffix

/-- `"pack-%s.%s" % (bin_to_hex(sha), 'idx')`, `gitdb/pack.py` 1025. -/
def newIdxName (sha : Bytes) : Bytes := packPrefix ++ [0x62, 0x27] ++ binToHex sha ++ [0x27] ++ idxSuffix

/-- `PackEntity.create(object_iter, base_dir, object_count, zlib_compression)`, `gitdb/pack.py` 1006-1029: the system calls
that change something, and the name of the new pack.  An exception leaves the temporary files.  Nobody looks at the number
of bytes written by `os.write` (1016-1017).  Paths are relative to `base_dir`. -/
def createPack (H : Hash) (zl : Zlib) (fuel : Nat) (env : CreateEnv) (read : σ → Int → σ × Res Bytes)
    (objs : List (PackIn σ)) (objectCount : Option Nat) (level : Int) : List Ev × Res Bytes :=
  match env.packTmp with
  | none => ([], .error .osError)
  | some tp =>
    match env.idxTmp with
    | none => ([.create (packTmpPath tp)], .error .osError)
    | some ti =>
      let r := writePack H zl fuel read Fd.write (some Fd.write) objs objectCount level
        { plan := env.packPlan } { plan := env.idxPlan }
      let evs := [.create (packTmpPath tp), .create (idxTmpPath ti)] ++ r.1.chunks.map (.append (packTmpPath tp)) ++
        r.2.1.chunks.map (.append (idxTmpPath ti))
      match r.2.2 with
      | .error e => (evs, .error e)
      | .ok (sha, _) =>
        if env.close1 = false ∨ env.close2 = false ∨ env.rename1 = false then (evs, .error .osError)
        else if env.rename2 = false then
          (evs ++ [.rename (packTmpPath tp) [newPackName sha]], .error .osError)
        else
          (evs ++ [.rename (packTmpPath tp) [newPackName sha], .rename (idxTmpPath ti) [newIdxName sha]],
            .ok (newPackName sha))

/-- What `PackedDB` sees of a directory. -/
def ViewOf (fs : Fs) (d : PackDir) : Prop :=
  (d.files.map Prod.fst).Nodup ∧ ∀ name c, d.get name = some c ↔ ∃ m, fs [name] = some (.file c m)

end GitDB
