import Verif.Model.Loose
import Verif.Model.PackCreate
import Verif.Model.LockedFD
/-!
# File descriptors: `gitdb/util.py` 163-209, `gitdb/db/loose.py` 127-167, 177-205, `gitdb/pack.py` 1006-1029

Which descriptors and memory maps a process holds.  Whether a system call succeeds is chosen by the environment.

Simplifications: only the resources are followed here, the data is the subject of the other modules; a failing `close(2)`
releases the descriptor nevertheless (as Linux does); an object which is no longer referenced is deleted at once (as
CPython does), and deleting a memory map releases it.
-/
set_option autoImplicit false

namespace GitDB

/-- What a process holds: descriptors and memory maps (a map includes the duplicate of the descriptor made by Python), and
a supply of new numbers. -/
structure Proc where
  fds : List Nat := []
  maps : List Nat := []
  next : Nat := 0
  deriving DecidableEq, Repr

/-- `open(2)` -/
def Proc.openFd (p : Proc) : Proc × Nat := ({ p with fds := p.next :: p.fds, next := p.next + 1 }, p.next)
/-- `close(2)` -/
def Proc.closeFd (p : Proc) (n : Nat) : Proc := { p with fds := p.fds.erase n }
/-- `mmap(2)` -/
def Proc.mmap (p : Proc) : Proc × Nat := ({ p with maps := p.next :: p.maps, next := p.next + 1 }, p.next)
/-- closing or deleting a memory map -/
def Proc.unmap (p : Proc) (n : Nat) : Proc := { p with maps := p.maps.erase n }

/-- Results of opening a file. -/
inductive OpenOutcome where
  | ok
  | absent
  | fail
  deriving DecidableEq, Repr

/-- Results of `mmap.mmap`; `ValueError` for an empty file. -/
inductive MapOutcome where
  | ok
  | fail
  | empty
  deriving DecidableEq, Repr

/-- The system calls of `file_contents_ro_filepath`, in their order. -/
structure ReadEnv where
  open_ : OpenOutcome
  mmap1 : MapOutcome
  fstat1 : Bool
  mmap2 : MapOutcome
  fstat2 : Bool
  read : Bool
  close : Bool
  deriving DecidableEq, Repr

/-- The memory returned: a map, or bytes. -/
inductive Memory where
  | map (n : Nat)
  | bytes
  deriving DecidableEq, Repr

/-- Deleting it; also `if hasattr(m, 'close'): m.close()`. -/
def Proc.release (p : Proc) : Memory → Proc
  | .map n => p.unmap n
  | .bytes => p

/-- `file_contents_ro(fd)` with the default arguments, `gitdb/util.py` 163-189. -/
def fileContentsRo (env : ReadEnv) (p : Proc) : Proc × Res Memory :=
  let manually : Proc × Res Memory :=
    if env.fstat2 = false ∨ env.read = false then (p, .error .osError) else (p, .ok .bytes)
  match env.mmap1 with
  | .ok => (p.mmap.1, .ok (.map p.mmap.2))
  | .empty => (p, .error .valueError)
  | .fail =>
    if env.fstat1 = false then manually
    else
      match env.mmap2 with
      | .ok => (p.mmap.1, .ok (.map p.mmap.2))
      | .empty => (p, .error .valueError)
      | .fail => manually

/-- `file_contents_ro_filepath(filepath, flags=…)`, `gitdb/util.py` 192-209.  An exception of `close` in `finally` replaces the
result, which is deleted. -/
def fileContentsRoFilepath (env : ReadEnv) (p : Proc) : Proc × Res Memory :=
  match env.open_ with
  | .absent => (p, .error .fileNotFound)
  | .fail => (p, .error .osError)
  | .ok =>
    let o := p.openFd
    let r := fileContentsRo env o.1
    let q := r.1.closeFd o.2
    if env.close then (q, r.2)
    else
      match r.2 with
      | .ok m => (q.release m, .error .osError)
      | .error _ => (q, .error .osError)

/-- `_map_loose_object(sha)`, `gitdb/db/loose.py` 127-146. -/
def mapLooseFd (env1 env2 : ReadEnv) (p : Proc) : Proc × Res Memory :=
  match fileContentsRoFilepath env1 p with
  | (p, .error .fileNotFound) => (p, .error .badObject)
  | (p, .error .osError) =>
    match fileContentsRoFilepath env2 p with
    | (p, .error .fileNotFound) => (p, .error .badObject)
    | (p, .error .osError) => (p, .error .badObject)
    | r => r
  | r => r

/-- `info(sha)`, `gitdb/db/loose.py` 154-162; `header` is the result of reading the header. -/
def looseInfoFd {α : Type} (env1 env2 : ReadEnv) (header : Res α) (p : Proc) : Proc × Res α :=
  match mapLooseFd env1 env2 p with
  | (p, .error e) => (p, .error e)
  | (p, .ok m) => (p.release m, header)

/-- `stream(sha)`, `gitdb/db/loose.py` 164-167: the memory is now held by the reader returned.  If the header
cannot be read the reader is deleted, which closes the map (`gitdb/stream.py` 91-92, 140-148). -/
def looseStreamFd {α : Type} (env1 env2 : ReadEnv) (header : Res α) (p : Proc) : Proc × Res (Memory × α) :=
  match mapLooseFd env1 env2 p with
  | (p, .error e) => (p, .error e)
  | (p, .ok m) =>
    match header with
    | .error e => (p.release m, .error e)
    | .ok a => (p, .ok (m, a))

/-- The descriptor opened by `store(istream)` as it is after line 205 of `gitdb/db/loose.py` (nothing later uses it);
`none`: no file was opened. -/
def looseStoreFd {σ : Type} (zl : Zlib) (fuel : Nat) (env : StoreEnv) (read : σ → Int → σ × Res Bytes)
    (i : IStream σ) : Option Fd :=
  match env.tmp with
  | none => none
  | some _ =>
    match i.binsha with
    | none => some (writeObject fuel i.type i.size read fdWrite looseChunk i.strm
        (FDCompressedSha1Writer.new zl { plan := env.plan })).2.1.close.1.fd
    | some _ => some (streamCopy fuel read FDStream.write maxsize looseChunk i.strm
        ({ fd := { plan := env.plan } } : FDStream)).2.1.fd.close.1

/-- The descriptors opened by `PackEntity.create`, as they are when it ends, `gitdb/pack.py` 1014-1021. -/
def createPackFds {σ : Type} (H : Hash) (zl : Zlib) (fuel : Nat) (env : CreateEnv) (read : σ → Int → σ × Res Bytes)
    (objs : List (PackIn σ)) (objectCount : Option Nat) (level : Int) : List Fd :=
  match env.packTmp with
  | none => []
  | some _ =>
    match env.idxTmp with
    | none => [{ plan := env.packPlan }]
    | some _ =>
      let r := writePack H zl fuel read Fd.write (some Fd.write) objs objectCount level
        { plan := env.packPlan } { plan := env.idxPlan }
      match r.2.2 with
      | .error _ => [r.1, r.2.1]
      | .ok _ =>
        if env.close1 then [r.1.close.1, r.2.1.close.1] else [r.1.close.1, r.2.1]

end GitDB
