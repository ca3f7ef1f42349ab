import Verif.Model.MergeDeltas
/-!
# `DeltaChunkList.lbound`, `size` and `check_integrity`: `gitdb/fun.py` 233-241, 291-319
-/
set_option autoImplicit false

namespace GitDB

/-- `DeltaChunkList.lbound`, `gitdb/fun.py` 233-237. -/
def listLbound (dcl : List DeltaChunk) : Int :=
  match dcl with
  | dc :: _ => dc.to
  | [] => 0

/-- `DeltaChunkList.size`, `gitdb/fun.py` 239-241. -/
def listSize (dcl : List DeltaChunk) : Int := listRbound dcl - listLbound dcl

/-- `gitdb/fun.py` 296-299: the check of the total size.  `self[-1]` of an empty list raises. -/
def checkTotal (l : List DeltaChunk) (targetSize : Int) : Res Unit :=
  if targetSize > -1 then
    match l.getLast? with
    | none => .error .indexError
    | some dc =>
      if dc.rbound = targetSize then
        pyAssert (decide ((l.map DeltaChunk.ts).foldl (fun x y => x + y) 0 = targetSize))
      else .error .assertionError
  else .ok ()

/-- `gitdb/fun.py` 305-309: the check of each chunk. -/
def checkData : List DeltaChunk → Res Unit
  | [] => .ok ()
  | dc :: l =>
    if dc.ts > 0 then
      match dc.data with
      | none => checkData l
      | some d => if (d.length : Int) ≥ dc.ts then checkData l else .error .assertionError
    else .error .assertionError

/-- `gitdb/fun.py` 316-319: the check of each pair of neighbours.  (317 and 318 say the same.) -/
def checkPairs : List DeltaChunk → Res Unit
  | lft :: rgt :: l =>
    if lft.rbound = rgt.to ∧ lft.to + lft.ts = rgt.to then checkPairs (rgt :: l) else .error .assertionError
  | _ => .ok ()

/-- `check_integrity(target_size)`, `gitdb/fun.py` 291-319.  `hasNext`: iterators have a method `next`
(312), as in Python 2. -/
def checkIntegrity (hasNext : Bool) (l : List DeltaChunk) (targetSize : Int) : Res Unit := do
  checkTotal l targetSize
  if l.length < 2 then return ()
  checkData l
  if hasNext then checkPairs l else .error .attributeError

end GitDB
