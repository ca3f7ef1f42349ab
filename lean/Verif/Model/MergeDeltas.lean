import Verif.Model.Delta
import Verif.Model.Varint
/-!
# Merging a chain of deltas: `gitdb/fun.py` 60-384, 536-618

The module was written for Python 2 and is only partly converted: it applies `ord` to the integers obtained by indexing
`bytes`, uses the result of `/` as a list index and writes bytes to an `io.StringIO`.  What the
interpreter does with these three constructs is a parameter (`PyOps`), with two readings: Python 3, and what
the author meant.

Simplifications: list methods which are walked with an index are recursions over the list where no index
is observable (`connect_with_next_base`); exceptions leave `connect_deltas`, so the contents of half
modified lists are not kept.
-/
set_option autoImplicit false

namespace GitDB

/-- Three constructs whose meaning depends on the interpreter: `ord(db[i])`, the list index `n / 2`, and
`StringIO().write(data)`. -/
structure PyOps where
  ord : UInt8 → Res Nat
  half : Nat → Res Nat
  text : Bytes → Res Bytes

/-- Python 3: `ord` of an integer, a float as list index, and bytes written to `io.StringIO` all raise
`TypeError`. -/
def PyOps.python3 : PyOps where
  ord _ := .error .typeError
  half _ := .error .typeError
  text _ := .error .typeError

/-- What was meant. -/
def PyOps.meant : PyOps where
  ord b := .ok b.toNat
  half n := .ok (n / 2)
  text d := .ok d

/-- Python slicing `b[i:j]` with arbitrary integers. -/
def pySliceI (b : Bytes) (i j : Int) : Bytes :=
  let norm (x : Int) : Nat := if x < 0 then (x + b.length).toNat else x.toNat
  pySlice b (norm i) (norm j)

/-- Python list indexing `l[i]` with an arbitrary integer. -/
def pyAt {α : Type} (l : List α) (i : Int) : Res α :=
  let k := if i < 0 then i + l.length else i
  if k < 0 then .error .indexError
  else match l[k.toNat]? with
    | some x => .ok x
    | none => .error .indexError

/-- `DeltaChunk`, `gitdb/fun.py` 116-146. -/
structure DeltaChunk where
  to : Int
  ts : Int
  so : Int
  data : Option Bytes
  deriving DecidableEq, Repr

/-- `DeltaChunk.rbound`, `gitdb/fun.py` 139-140. -/
def DeltaChunk.rbound (d : DeltaChunk) : Int := d.to + d.ts

/-- `_move_delta_lbound`, `gitdb/fun.py` 75-90. -/
def moveLbound (d : DeltaChunk) (n : Int) : DeltaChunk :=
  if n = 0 then d
  else { to := d.to + n, ts := d.ts - n, so := d.so + n,
         data := d.data.map fun b => pySliceI b n b.length }

/-- The argument `delta_chunk_apply` passes to `write`, `gitdb/fun.py` 97-113. -/
def chunkApply (dc : DeltaChunk) (bbuf : Bytes) : Bytes :=
  match dc.data with
  | none => pySliceI bbuf dc.so (dc.so + dc.ts)
  | some d => if dc.ts < d.length then pySliceI d 0 dc.ts else d

/-- `_closest_index`, `gitdb/fun.py` 149-167.  The fuel is the length of the list plus one. -/
def closestLoop (o : PyOps) (dcl : List DeltaChunk) (absofs : Int) : Nat → Nat → Nat → Res Int
  | 0, _, _ => .error .diverge
  | fuel + 1, lo, hi =>
    if lo < hi then
      match o.half (lo + hi) with
      | .error e => .error e
      | .ok mid =>
        match pyAt dcl mid with
        | .error e => .error e
        | .ok dc =>
          if dc.to > absofs then closestLoop o dcl absofs fuel lo mid
          else if dc.rbound > absofs ∨ dc.to = absofs then .ok mid
          else closestLoop o dcl absofs fuel (mid + 1) hi
    else .ok ((dcl.length : Int) - 1)

/-- `_closest_index`, `gitdb/fun.py` 149-167. -/
def closestIndex (o : PyOps) (dcl : List DeltaChunk) (absofs : Int) : Res Int :=
  closestLoop o dcl absofs (dcl.length + 1) 0 dcl.length

variable {ω : Type}

/-- `delta_list_apply`, `gitdb/fun.py` 170-179, with a writer which may raise. -/
def listApply (bbuf : Bytes) (write : ω → Bytes → ω × Res Unit) : ω → List DeltaChunk → ω × Res Unit
  | w, [] => (w, .ok ())
  | w, dc :: dcl =>
    match write w (chunkApply dc bbuf) with
    | (w, .error e) => (w, .error e)
    | (w, .ok ()) => listApply bbuf write w dcl

/-- The loop of `delta_list_slice`, `gitdb/fun.py` 200-214: what it appends. -/
def sliceLoop : List DeltaChunk → Int → List DeltaChunk
  | [], _ => []
  | cd :: dcl, size =>
    if size ≠ 0 then
      if cd.ts ≤ size then cd :: sliceLoop dcl (size - cd.ts)
      else [{ cd with ts := size }]
    else []

/-- `delta_list_slice`, `gitdb/fun.py` 182-214: what is appended to `ndcl`. -/
def listSlice (o : PyOps) (dcl : List DeltaChunk) (absofs size : Int) : Res (List DeltaChunk) :=
  match closestIndex o dcl absofs with
  | .error e => .error e
  | .ok cdi =>
    match pyAt dcl cdi with
    | .error e => .error e
    | .ok cd =>
      if cd.to ≠ absofs then
        let tcd := moveLbound cd (absofs - cd.to)
        let tcd := { tcd with ts := min tcd.ts size }
        .ok (tcd :: sliceLoop (dcl.drop (cdi.toNat + 1)) (size - tcd.ts))
      else .ok (sliceLoop (dcl.drop cdi.toNat) size)

/-- `DeltaChunkList.rbound`, `gitdb/fun.py` 227-231. -/
def listRbound (dcl : List DeltaChunk) : Int :=
  match dcl.getLast? with
  | some dc => dc.rbound
  | none => 0

/-- Lines 266-268 of `DeltaChunkList.compress`: the data of chunks, one after the other. -/
def joinData (o : PyOps) : List DeltaChunk → Res Bytes
  | [] => .ok []
  | xdc :: l =>
    match xdc.data with
    | none => .error .typeError
    | some d =>
      match o.text (pySliceI d 0 xdc.ts) with
      | .error e => .error e
      | .ok d =>
        match joinData o l with
        | .error e => .error e
        | .ok b => .ok (d ++ b)

/-- The loop of `DeltaChunkList.compress`, `gitdb/fun.py` 258-285. -/
def compressLoop (o : PyOps) : Nat → List DeltaChunk → Nat → Option Nat → Res (List DeltaChunk)
  | 0, _, _, _ => .error .diverge
  | fuel + 1, l, i, first =>
    if i < l.length then
      match l[i]? with
      | none => .error .indexError
      | some dc =>
        let i := i + 1
        match dc.data with
        | none =>
          match first with
          | some f =>
            if (i : Int) - 2 - f > 1 then
              match l[f]? with
              | none => .error .indexError
              | some fdc =>
                match joinData o ((l.take (i - 1)).drop f) with
                | .error e => .error e
                | .ok buf =>
                  let l := l.take f ++ { to := fdc.to, ts := buf.length, so := 0, data := some buf } ::
                    l.drop (i - 1)
                  compressLoop o fuel l (f + 1) none
            else compressLoop o fuel l i none
          | none => compressLoop o fuel l i none
        | some _ => compressLoop o fuel l i (some (first.getD (i - 1)))
    else .ok l

/-- `DeltaChunkList.compress`, `gitdb/fun.py` 248-289. -/
def compress (o : PyOps) (l : List DeltaChunk) : Res (List DeltaChunk) :=
  if l.length < 2 then .ok l else compressLoop o (2 * l.length + 1) l 0 none

/-- `TopdownDeltaChunkList.connect_with_next_base`, `gitdb/fun.py` 328-384: the new list and the number of
frozen chunks. -/
def connectChunks (o : PyOps) (bdcl : List DeltaChunk) : List DeltaChunk → Res (List DeltaChunk × Nat)
  | [] => .ok ([], 0)
  | dc :: l =>
    match dc.data with
    | some _ =>
      match connectChunks o bdcl l with
      | .error e => .error e
      | .ok (l, nfc) => .ok (dc :: l, nfc + 1)
    | none =>
      match listSlice o bdcl dc.so dc.ts with
      | .error e => .error e
      | .ok ccl =>
        match connectChunks o bdcl l with
        | .error e => .error e
        | .ok (l, nfc) => .ok (ccl.map (fun cdc => { cdc with to := cdc.to + (dc.to - dc.so) }) ++ l, nfc)

/-- The loop over the instructions in `connect_deltas`, `gitdb/fun.py` 557-601.  `ord` is applied to every
byte; after the opcode has been read `decodeCopy` reads the operands (if `ord` raises, it does so for the
opcode). -/
def parseChunks (o : PyOps) (db : Bytes) (dbSize baseSize : Nat) (i tbw : Nat) : Res (List DeltaChunk) :=
  if hi : i < dbSize then
    match db[i]? with
    | none => .error .indexError
    | some b =>
    match o.ord b with
    | .error e => .error e
    | .ok c =>
      if c &&& 0x80 ≠ 0 then
        match hd : decodeCopy db c (i + 1) with
        | .error e => .error e
        | .ok (cpOff, cpSize, i2) =>
          let rbound := cpOff + cpSize
          if rbound < cpSize ∨ rbound > baseSize then .ok []
          else
            have : dbSize - i2 < dbSize - i := by
              have := decodeCopy_mono hd; omega
            match parseChunks o db dbSize baseSize i2 (tbw + cpSize) with
            | .error e => .error e
            | .ok l => .ok ({ to := tbw, ts := cpSize, so := cpOff, data := none } :: l)
      else if c ≠ 0 then
        match parseChunks o db dbSize baseSize (i + 1 + c) (tbw + c) with
        | .error e => .error e
        | .ok l =>
          .ok ({ to := tbw, ts := c, so := 0, data := some (pySlice db (i + 1) (i + 1 + c)) } :: l)
      else .error .valueError
  else .ok []
termination_by dbSize - i
decreasing_by all_goals omega

/-- One delta stream in `connect_deltas`, `gitdb/fun.py` 548-603: `db = ds.read()`, `ds.size`. -/
def readChunks (o : PyOps) (db : Bytes) (size : Nat) : Res (List DeltaChunk) := do
  let (i, baseSize) ← msbSize db 0
  let (i, _) ← msbSize db i
  let l ← parseChunks o db size baseSize i 0
  compress o l

/-- The loop of `connect_deltas` from the second stream on, `gitdb/fun.py` 547-616. -/
def connectLoop (o : PyOps) : List DeltaChunk → List (Bytes × Nat) → Res (List DeltaChunk)
  | tdcl, [] => .ok tdcl
  | tdcl, (db, size) :: ds => do
    let dcl ← readChunks o db size
    let (tdcl, nfc) ← connectChunks o dcl tdcl
    if nfc = tdcl.length then return tdcl
    else connectLoop o tdcl ds

/-- `connect_deltas`, `gitdb/fun.py` 536-618: streams (content, size), topmost first. -/
def connectDeltas (o : PyOps) : List (Bytes × Nat) → Res (List DeltaChunk)
  | [] => .ok []
  | (db, size) :: ds => do
    let tdcl ← readChunks o db size
    connectLoop o tdcl ds

end GitDB
