import Verif.Model.Alternates
/-!
# `GitDB` with alternates that form cycles, and the recursion limit

`ReferenceDB._update_dbs_from_ref_file` (`gitdb/db/ref.py` 34-77) makes a new `GitDB` for every path, so alternates that lead back to
themselves are a tree without end, of which lookups (`gitdb/db/base.py` 181-207) make one level after the other.  At some depth the
interpreter raises `RecursionError`, at any call.  What happens there depends on the place: in lines 67-76 of `gitdb/db/ref.py` it is
caught and the alternate is left out; elsewhere it comes through to the caller, and leaves behind databases that are loaded in part,
which later calls use as they are.

So the tree is described to the depth `n` for which the stack suffices in every call, and what lies below is any database `β` with
operations `B`.
Simplifications: all databases down to depth `n` are made at once (the code makes them when they are first used; the files do not change
here).  An alternate that is left out is one that answers no.
-/
set_option autoImplicit false

namespace GitDB

/-- A database below the depth, with the path it was made for, `gitdb/db/ref.py` 68. -/
def bottomOps {β α : Type} (B : DbOps Disk β α) : DbOps Disk (Text × β) α where
  has := fun D x sha => let r := B.has D x.2 sha; ((x.1, r.1), r.2)
  get := fun D x sha => let r := B.get D x.2 sha; ((x.1, r.1), r.2)
  size := fun D x => let r := B.size D x.2; ((x.1, r.1), r.2)
  shas := fun D x => let r := B.shas D x.2; ((x.1, r.1), r.2)
  update := fun D x force => let r := B.update D x.2 force; ((x.1, r.1), r.2)
  complete := fun D x part => let r := B.complete D x.2 part; ((x.1, r.1), r.2)

/-- The operations of pack and loose databases and of those below the depth. -/
def deepOps {β α : Type} (order : List Bytes → List Bytes) (getP : Option PackDir → PackedDB → Bytes → PackedDB × Res α)
    (getL : Fs → Bytes → Res α) (B : DbOps Disk β α) : DbOps Disk (GitLeaf ⊕ Text × β) α :=
  sumOps (leafOps order getP getL) (bottomOps B)

/-- As `gitTree`: `gitdb/db/git.py` 44-69 and `gitdb/db/ref.py` 26-77.  `way` are the paths that led to `root`, `mk` makes what is
below the depth. -/
def deepTree {β : Type} (D : Disk) (mk : List Text → Text → β) : (n : Nat) → List Text → Text → Nest (GitLeaf ⊕ Text × β) (2 * n)
  | 0, way, root => (.inr (root, mk way root) : GitLeaf ⊕ Text × β)
  | n + 1, way, root =>
    let ref : Nest (GitLeaf ⊕ Text × β) (2 * n + 1) := .inr { dbs := (altRoots D root).map (deepTree D mk n (way ++ [root])) }
    .inr { dbs := (gitDbs D root).1.map fun
      | .pack => (.inl (.inl (.pack root {})) : Nest (GitLeaf ⊕ Text × β) (2 * n + 1))
      | .loose => .inl (.inl (.loose root {}))
      | .ref => ref }

end GitDB
