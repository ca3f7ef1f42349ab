import Verif.Model.Alternates
/-!
# `GitDB` on a disk that changes: `gitdb/db/git.py`, `gitdb/db/ref.py`

In `gitTree` (`Verif.Model.Alternates`) all databases of a `GitDB` are created at once.  Here they are created as in the code: the
databases of a `GitDB` at the first access to `_dbs`, those of a `ReferenceDB` likewise, with what is on the disk at that moment, and
`update_cache` reads the alternates files again.  The disk is an argument of every call, so that it may change between calls (not
during one).
Simplifications: below a depth of `n` alternates the interpreter gives up.  (`partial_to_complete_sha_hex` is `liveComplete`,
`Verif.Model.LiveComplete`; `complete` of `liveOps` is not used.)
-/
set_option autoImplicit false

namespace GitDB

variable {ω σ α β : Type}

/-- Databases together with their `root_path()`. -/
def pairOps (O : DbOps ω σ α) : DbOps ω (Text × σ) α where
  has := fun w x sha => let r := O.has w x.2 sha; ((x.1, r.1), r.2)
  get := fun w x sha => let r := O.get w x.2 sha; ((x.1, r.1), r.2)
  size := fun w x => let r := O.size w x.2; ((x.1, r.1), r.2)
  shas := fun w x => let r := O.shas w x.2; ((x.1, r.1), r.2)
  update := fun w x force => let r := O.update w x.2 force; ((x.1, r.1), r.2)
  complete := fun w x part => let r := O.complete w x.2 part; ((x.1, r.1), r.2)

/-- What reading the alternates file of a root path gives, `gitdb/db/ref.py` 45-46. -/
def Disk.altFile (D : Disk) (root : Text) : Res Text := (D.alt root).getD (.error .fileNotFound)

/-! ### `ReferenceDB` -/

/-- The `ReferenceDB` of the `GitDB` at `root`, `gitdb/db/ref.py` 22-24. -/
structure RefNode (σ : Type) where
  root : Text
  db : RefDB σ := {}

/-- A method of `CompoundDB` (`gitdb/db/base.py` 141-278) called on a `ReferenceDB`: `_dbs` is loaded first if that has not
been done (`gitdb/db/ref.py` 26-32). -/
def RefNode.use (order : List Text → List Text) (mk : Disk → Text → Option σ) (D : Disk)
    (f : Compound (Text × σ) → Compound (Text × σ) × Res β) (r : RefNode σ) : RefNode σ × Res β :=
  match r.db.load order (mk D) (D.altFile r.root) with
  | (db, .error e) => ({ r with db := db }, .error e)
  | (db, .ok l) =>
    let x := f { dbs := l, cache := db.cache }
    ({ r with db := { dbs := some x.1.dbs, cache := x.1.cache } }, x.2)

/-- `ReferenceDB` as a database; `update_cache` is `gitdb/db/ref.py` 79-82. -/
def refOps (order : List Text → List Text) (mk : Disk → Text → Option σ) (O : DbOps Disk σ α) : DbOps Disk (RefNode σ) α where
  has := fun D r sha => r.use order mk D fun c => c.has (pairOps O) D sha
  get := fun D r sha => r.use order mk D fun c => c.get (pairOps O) D sha
  size := fun D r => r.use order mk D fun c => c.size (pairOps O) D
  shas := fun D r => r.use order mk D fun c => c.shas (pairOps O) D
  update := fun D r force =>
    match r.db.refresh order (mk D) (D.altFile r.root) with
    | (db, .error e) => ({ r with db := db }, .error e)
    | (db, .ok ()) => RefNode.use order mk D (fun c => c.update (pairOps O) D force) { r with db := db }
  complete := fun D r part => r.use order mk D fun c => c.complete (pairOps O) D part

/-! ### `GitDB` -/

/-- `GitDB(root)` with its databases, `gitdb/db/git.py` 40-42; `none`: `_dbs` not yet loaded. -/
structure GitState (σ : Type) where
  root : Text
  dbs : Option (List (GitLeaf ⊕ RefNode σ)) := none
  cache : List (Bytes × Nat) := []

/-- The databases created by `_set_cache_`, `gitdb/db/git.py` 48-58. -/
def newParts (D : Disk) (root : Text) : List (GitLeaf ⊕ RefNode σ) :=
  (gitDbs D root).1.map fun
    | .pack => .inl (.pack root {})
    | .loose => .inl (.loose root {})
    | .ref => .inr { root := root }

/-- Access to `_dbs`, `gitdb/db/git.py` 44-72.  After an exception it exists, and is not loaded again. -/
def GitState.load (D : Disk) (g : GitState σ) : GitState σ × Res (List (GitLeaf ⊕ RefNode σ)) :=
  match g.dbs with
  | some l => (g, .ok l)
  | none =>
    match (gitDbs D g.root).2 with
    | .error e => ({ g with dbs := some (newParts D g.root) }, .error e)
    | .ok () => ({ g with dbs := some (newParts D g.root) }, .ok (newParts D g.root))

/-- A method of `CompoundDB` (`gitdb/db/base.py` 141-278) called on a `GitDB`. -/
def GitState.use (D : Disk) (f : Compound (GitLeaf ⊕ RefNode σ) → Compound (GitLeaf ⊕ RefNode σ) × Res β) (g : GitState σ) :
    GitState σ × Res β :=
  match g.load D with
  | (g, .error e) => (g, .error e)
  | (g, .ok l) =>
    let x := f { dbs := l, cache := g.cache }
    ({ g with dbs := some x.1.dbs, cache := x.1.cache }, x.2)

/-- `GitDB` as a database, over the operations of its databases. -/
def stateOps (O : DbOps Disk (GitLeaf ⊕ RefNode σ) α) : DbOps Disk (GitState σ) α where
  has := fun D g sha => g.use D fun c => c.has O D sha
  get := fun D g sha => g.use D fun c => c.get O D sha
  size := fun D g => g.use D fun c => c.size O D
  shas := fun D g => g.use D fun c => c.shas O D
  update := fun D g force => g.use D fun c => c.update O D force
  complete := fun D g part => g.use D fun c => c.complete O D part

/-- A `GitDB` with alternates up to depth `n`; at depth 0 only its path. -/
def GitNode : Nat → Type
  | 0 => Text
  | n + 1 => GitState (GitNode n)

/-- A `GitDB` that has not been used, `gitdb/db/git.py` 40-42. -/
def freshNode : (n : Nat) → Text → GitNode n
  | 0, p => p
  | _ + 1, p => { root := p }

/-- `dbcls(path)` with `db.databases()`, `gitdb/db/ref.py` 67-73. -/
def newNode : (n : Nat) → Disk → Text → Option (GitNode n)
  | 0, D, p => (mkGit D p).map fun _ => p
  | _ + 1, D, p =>
    match GitState.load D { root := p } with
    | (g, .ok _) => some g
    | (_, .error _) => none

/-- Where the interpreter gives up. -/
def stopOps : DbOps Disk Text α where
  has := fun _ p _ => (p, .error .diverge)
  get := fun _ p _ => (p, .error .diverge)
  size := fun _ p => (p, .error .diverge)
  shas := fun _ p => (p, .error .diverge)
  update := fun _ p _ => (p, .error .diverge)
  complete := fun _ p _ => (p, .error .diverge)

/-- The operations of a `GitDB`; `L` are those of pack and loose databases. -/
def liveOps (order : List Text → List Text) (L : DbOps Disk GitLeaf α) : (n : Nat) → DbOps Disk (GitNode n) α
  | 0 => stopOps
  | n + 1 => stateOps (sumOps L (refOps order (newNode n) (liveOps order L n)))

end GitDB
