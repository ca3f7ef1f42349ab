import Verif.Model.Live
/-!
# Abbreviations in a `GitDB` with alternates: `gitdb/db/base.py` 153-162, 241-276

The databases at the ends are collected first, which loads those that have not been loaded.  They are shared objects: what happens to
them afterwards is put back into the tree.
-/
set_option autoImplicit false

namespace GitDB

variable {σ α : Type}

/-- The databases that are not compound, `gitdb/db/base.py` 158. -/
def partLeaf : GitLeaf ⊕ RefNode σ → List GitLeaf
  | .inl s => [s]
  | .inr _ => []

/-- `_databases_recursive(db, output)`, `gitdb/db/base.py` 153-162, for a `GitDB`: first the databases that are not compound, then those
of the `ReferenceDB`, whose databases are `GitDB`s. -/
def liveCollect (order : List Text → List Text) : (n : Nat) → Disk → GitNode n → GitNode n × Res (List GitLeaf)
  | 0, _, p => (p, .error .diverge)
  | n + 1, D, t =>
    match GitState.load D t with
    | (g, .error e) => (g, .error e)
    | (g, .ok l) =>
      let x := eachDb (fun
        | .inl s => (.inl s, .ok [])
        | .inr r =>
          let y := r.use order (newNode n) D fun c =>
            let z := eachDb (fun d => let u := liveCollect order n D d.2; ((d.1, u.1), u.2)) c.dbs
            ({ c with dbs := z.1 }, z.2.map List.flatten)
          (.inr y.1, y.2)) l
      ((⟨g.root, some x.1, g.cache⟩ : GitState (GitNode n)), x.2.map fun xs => l.flatMap partLeaf ++ xs.flatten)

/-- A database that is not compound is replaced by the next in the list. -/
def putLeaf : GitLeaf ⊕ RefNode σ → List GitLeaf → (GitLeaf ⊕ RefNode σ) × List GitLeaf
  | .inl s, l => (.inl (l.headD s), l.tail)
  | .inr r, l => (.inr r, l)

/-- Likewise those below a `ReferenceDB`. -/
def putRef (put : σ → List GitLeaf → σ × List GitLeaf) : GitLeaf ⊕ RefNode σ → List GitLeaf → (GitLeaf ⊕ RefNode σ) × List GitLeaf
  | .inl s, l => (.inl s, l)
  | .inr r, l =>
    match r.db.dbs with
    | none => (.inr r, l)
    | some ds =>
      let z := putBackList (fun d l => let u := put d.2 l; ((d.1, u.1), u.2)) (fun _ => true) ds l
      (.inr ⟨r.root, ⟨some z.1, r.db.cache⟩⟩, z.2)

/-- The databases at the ends, as they are after the loop; in the order of `liveCollect`.  Gives the rest of the list as well. -/
def livePut : (n : Nat) → GitNode n → List GitLeaf → GitNode n × List GitLeaf
  | 0, p, l => (p, l)
  | n + 1, t, l =>
    match GitState.dbs t with
    | none => (t, l)
    | some parts =>
      let x := putBackList putLeaf (fun _ => true) parts l
      let y := putBackList (putRef (livePut n)) (fun _ => true) x.1 x.2
      ((⟨GitState.root t, some y.1, GitState.cache t⟩ : GitState (GitNode n)), y.2)

/-- `partial_to_complete_sha_hex(partial)` of a `GitDB`, `gitdb/db/base.py` 241-276. -/
def liveComplete (order : List Text → List Text) (L : DbOps Disk GitLeaf α) (n : Nat) (D : Disk) (t : GitNode n) (part : Bytes) :
    GitNode n × Res Bytes :=
  match liveCollect order n D t with
  | (t, .error e) => (t, .error e)
  | (t, .ok leaves) =>
    completeHex (fun t => let r := completeDbs L D part leaves none; ((livePut n t r.1).1, r.2)) t part

end GitDB
