import Verif.Model.Live
/-!
# `GitDB` from its creation on: `_dbs` and `_loose_db`, `gitdb/db/git.py` 40-84

`Verif.Model.Live` describes lookups, which use `_dbs`.  `store`, `ostream` and `set_ostream` use `_loose_db`.  Both attributes are set by
`_set_cache_`; after it has raised, `_dbs` exists and `_loose_db` does not.
Simplification: databases in `_db_cache` are given by their position in `_dbs`; when `_dbs` is loaded again there are none in it
(`life_inv`, `Verif.Props.GitLife`).
-/
set_option autoImplicit false

namespace GitDB

variable {σ β : Type}

/-- A `GitDB`; `loose`: does `_loose_db` exist?  It is then the loose database in `_dbs`, `gitdb/db/git.py` 56-57 and 69. -/
structure LifeDb (σ : Type) where
  git : GitState σ
  loose : Bool := false

/-- `GitDB(root_path)`, `gitdb/db/git.py` 40-42. -/
def LifeDb.new (root : Text) : LifeDb σ := { git := { root := root } }

/-- Does `_set_cache_` come to its end, `gitdb/db/git.py` 69? -/
def setCacheEnds (D : Disk) (root : Text) : Bool :=
  match (gitDbs D root).2 with
  | .ok () => true
  | .error _ => false

/-- A method `f` of `CompoundDB`, which begins with an access to `_dbs`, `gitdb/db/git.py` 44-72. -/
def LifeDb.use (D : Disk) (f : GitState σ → GitState σ × β) (g : LifeDb σ) : LifeDb σ × β :=
  let r := f g.git
  ({ git := r.1, loose := g.loose || (g.git.dbs.isNone && setCacheEnds D g.git.root) }, r.2)

/-- The access to `_loose_db` at the beginning of `store`, `ostream` and `set_ostream`, `gitdb/db/git.py` 76-84.  If there is none,
`_set_cache_` makes a new list `_dbs`, also if there is one (45-46). -/
def LifeDb.looseDb (D : Disk) (g : LifeDb σ) : LifeDb σ × Res Unit :=
  if g.loose then (g, .ok ())
  else ({ git := { g.git with dbs := some (newParts D g.git.root) }, loose := setCacheEnds D g.git.root }, (gitDbs D g.git.root).2)

end GitDB
