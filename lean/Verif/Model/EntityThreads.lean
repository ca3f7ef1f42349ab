import Verif.Model.LazyThreads
/-!
# Several threads and the first calls on a `PackEntity`

A `PackEntity` has a `PackIndexFile`, a `PackFile`, and `_offset_map`; the attributes of all three are filled on first access, by every thread
that finds one missing, while other threads go on.  Steps and simplifications are those of `Model/LazyThreads.lean`.
-/
set_option autoImplicit false

namespace GitDB

/-- Code on a part of an object, as code on the object. -/
def Att.lift {A V B W α : Type} (f : A → B) (up : V → W) (down : W → V) : Att A V α → Att B W α
  | .ret r => .ret r
  | .get a k => .get (f a) fun w => (k (down w)).lift f up down
  | .raw a k => .raw (f a) fun w => (k (down w)).lift f up down
  | .set a v k => .set (f a) (up v) (k.lift f up down)

/-- Attributes of a `PackEntity` (`gitdb/pack.py` 660-663) and of its index and pack. -/
inductive EAttr where
  | idx (a : IAttr)
  | pk (a : PAttr)
  | offsetMap
  deriving DecidableEq

/-- Their values: as before, or what is put into the dictionary. -/
inductive EVal where
  | val (v : IVal)
  | pairs (l : List (Nat × Nat))

def EVal.toVal : EVal → IVal
  | .val v => v
  | .pairs _ => .num 0
def EVal.toPairs : EVal → List (Nat × Nat)
  | .pairs l => l
  | .val _ => []

/-- The content of the pack, from a cursor. -/
def EVal.data (v : EVal) : Bytes := v.toVal.toMap

abbrev ECode (α : Type) := Att EAttr EVal α

/-- Code on the index. -/
def eIdx {α : Type} (l : ICode α) : ECode α := l.lift .idx .val EVal.toVal
/-- Code on the pack. -/
def ePk {α : Type} (l : PCode α) : ECode α := l.lift .pk .val EVal.toVal

/-- `_set_cache_` of the index (`gitdb/pack.py` 267-304), of the pack (532-542), and of the entity (677-700). -/
def eSetCache (idx pack : Bytes) : EAttr → ECode Unit
  | .idx a => eIdx (iSetCache idx a)
  | .pk a => ePk (pSetCache pack a)
  | .offsetMap => (eIdx iOffsets).bind fun offs => .get (.pk .cursor) fun c =>
    if offs = [] then .ret (.error .assertionError)
    else .set .offsetMap (.pairs (offsetPairs (sortNats offs) (c.data.length - 20))) (.ret (.ok ()))

/-- `self._index.offset(i)`. -/
def eOffset (i : Nat) : ECode Nat := eIdx (.get .offset fun v => iOffsetBody v.toNum i)

/-- `_sha_to_index(sha)`, `gitdb/pack.py` 702-707. -/
def eShaToIndex (sha : Bytes) : ECode Nat :=
  (eIdx (iShaToIndex sha)).bind fun r =>
    match r with
    | none => .ret (.error .badObject)
    | some i => .ret (.ok i)

/-- `self._pack.stream(offset)`, `gitdb/pack.py` 633-638. -/
def ePackStream (offset : Nat) : ECode PackObj :=
  .get (.pk .cursor) fun c => .ret (packObjectAt c.data (if offset = 0 then 12 else offset))

/-- The loop resolving `REF_DELTA`s, `gitdb/pack.py` 877-896. -/
def eResolve : Nat → PackObj → ECode (List PackObj)
  | 0, _ => .ret (.error .diverge)
  | fuel + 1, o =>
    match o.info with
    | .none => .ret (.ok [])
    | .ref sha => (eIdx (iShaToIndex sha)).bind fun r =>
      match r with
      | none => .ret (.ok [])
      | some i => (eOffset i).bind fun ofs => (ePackStream ofs).bind fun o' => (eResolve fuel o').bind fun l => .ret (.ok (o' :: l))
    | .ofs d => (ePackStream d).bind fun o' => (eResolve fuel o').bind fun l => .ret (.ok (o' :: l))

/-- `collect_streams_at_offset(offset)`, `gitdb/pack.py` 865-898. -/
def eCollect (fuel offset : Nat) : ECode (List PackObj) :=
  .get (.pk .cursor) fun c =>
    match PackFile.collectStreams ⟨c.data, 0, 0⟩ fuel offset with
    | .error e => .ret (.error e)
    | .ok streams =>
      match streams.getLast? with
      | none => .ret (.error .indexError)
      | some last =>
        if last.typeId = REF_DELTA then (eResolve fuel last).bind fun l => .ret (.ok (streams ++ l)) else .ret (.ok streams)

/-- `_object(sha, True)`, `gitdb/pack.py` 717-740. -/
def eStream (fuel : Nat) (sha : Bytes) : ECode OStream :=
  (eShaToIndex sha).bind fun i => (eOffset i).bind fun ofs => .get (.pk .cursor) fun c =>
    match packObjectHeaderInfo (c.data.drop ofs) with
    | .error e => .ret (.error e)
    | .ok (typeId, _, _) =>
      if typeId ≠ OFS_DELTA ∧ typeId ≠ REF_DELTA then
        (ePackStream ofs).bind fun o =>
          match typeIdToType o.typeId with
          | .error e => .ret (.error e)
          | .ok t => .ret (.ok ⟨sha, t, some o.size, .base o.stream⟩)
      else
        (eCollect fuel ofs).bind fun streams =>
          match deltaNew streams with
          | .error e => .ret (.error e)
          | .ok (t, s) => .ret (.ok ⟨sha, t, none, s⟩)

/-- `_object(sha, False)`, `gitdb/pack.py` 717-727, 742-756. -/
def eInfo (zl : Zlib) (fuel : Nat) (sha : Bytes) : ECode (PyName × Nat) :=
  (eShaToIndex sha).bind fun i => (eOffset i).bind fun ofs => .get (.pk .cursor) fun c =>
    match packObjectHeaderInfo (c.data.drop ofs) with
    | .error e => .ret (.error e)
    | .ok (typeId, size, _) =>
      if typeId ≠ OFS_DELTA ∧ typeId ≠ REF_DELTA then
        match typeIdToType typeId with
        | .error e => .ret (.error e)
        | .ok t => .ret (.ok (t, size))
      else
        (eCollect fuel ofs).bind fun streams =>
          match streams.head?, streams.getLast? with
          | some first, some last =>
            match first.stream.read zl 512 with
            | (_, .error e) => .ret (.error e)
            | (_, .ok buf) =>
              match msbSize buf 0 with
              | .error e => .ret (.error e)
              | .ok (offset, _) =>
                match msbSize buf offset with
                | .error e => .ret (.error e)
                | .ok (_, targetSize) =>
                  if last.typeId = OFS_DELTA ∨ last.typeId = REF_DELTA then .ret (.error .badObject)
                  else
                    match typeIdToType last.typeId with
                    | .error e => .ret (.error e)
                    | .ok t => .ret (.ok (t, targetSize))
          | _, _ => .ret (.error .indexError)

/-- `is_valid_stream(sha, use_crc=True)`, `gitdb/pack.py` 816-841. -/
def eValidCrc (fuel : Nat) (sha : Bytes) : ECode Bool :=
  .get (.idx .version) fun v =>
    if v.toVal.toNum < 2 then .ret (.error .unsupportedOperation)
    else (eShaToIndex sha).bind fun i => (eOffset i).bind fun offset => .get .offsetMap fun m =>
      match dictGet m.toPairs offset with
      | .error e => .ret (.error e)
      | .ok next => (eIdx (.get .crc fun v => iCrcBody v.toNum i)).bind fun crc => .get (.pk .cursor) fun c =>
        match crcLoop c.data chunkSize next fuel offset 0 with
        | .error e => .ret (.error e)
        | .ok this => .ret (.ok ((this &&& 0xffffffff) == crc))

/-- `is_valid_stream(sha)`, `gitdb/pack.py` 842-849: after `_object`, only the stream that was returned is used. -/
def eValidSha (H : Hash) (zl : Zlib) (fuel : Nat) (sha : Bytes) : ECode Bool :=
  (eStream fuel sha).bind fun o =>
    match o.getSize zl fuel with
    | .error e => .ret (.error e)
    | .ok size =>
      match writeObject fuel o.type.text size (PStream.read zl fuel) Sha1Writer.writeInt chunkSize o.stream {} with
      | (_, _, .error e) => .ret (.error e)
      | (_, w, .ok _) => .ret (if w.sha H false = sha then .ok true else .error .assertionError)

/-- What threads call. -/
inductive ECall where
  | info (sha : Bytes)
  | stream (sha : Bytes)
  | validCrc (sha : Bytes)
  | validSha (sha : Bytes)
  /-- `collect_streams(sha)`, `gitdb/pack.py` 900-912 -/
  | collect (sha : Bytes)
  /-- a call on `index()`, 793-795 -/
  | index (c : ICall)

/-- What calls return. -/
inductive EOut where
  | info (t : PyName) (size : Nat)
  | stream (o : OStream)
  | valid (b : Bool)
  | streams (l : List PackObj)
  | index (o : IOut)

/-- The code of a call. -/
def ECall.code (H : Hash) (zl : Zlib) (fuel : Nat) : ECall → ECode EOut
  | .info sha => (eInfo zl fuel sha).bind fun x => .ret (.ok (.info x.1 x.2))
  | .stream sha => (eStream fuel sha).bind fun o => .ret (.ok (.stream o))
  | .validCrc sha => (eValidCrc fuel sha).bind fun b => .ret (.ok (.valid b))
  | .validSha sha => (eValidSha H zl fuel sha).bind fun b => .ret (.ok (.valid b))
  | .collect sha => ((eShaToIndex sha).bind fun i => (eOffset i).bind fun o => eCollect fuel o).bind fun l => .ret (.ok (.streams l))
  | .index c => (eIdx c.code).bind fun o => .ret (.ok (.index o))

end GitDB
