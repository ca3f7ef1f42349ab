import Verif.Model.Lazy
/-!
# Several threads and attributes filled on first access

`LazyMixin.__getattr__` (`gitdb/util.py` 250-257) runs `_set_cache_` in every thread that finds an attribute missing; several threads may be
in `_set_cache_` of one `PackIndexFile` or `PackFile` at the same time, each of them setting the attributes one after another.  Here every
reading and every setting of an attribute is one step, and after every step another thread may go on.

Simplifications: making a cursor (276, 534) is one step with its assignment; looking at a pack through its cursor is one step
(`Model/SharedCursor.lean` is about the steps in between); the limit on the size of the window (278-280) is left out; `close()` is not described.
-/
set_option autoImplicit false

namespace GitDB

/-- A call in progress on an object with attributes `A` and values `V`: it has ended, or goes on by reading an attribute (`get`, through
`__getattr__` if it is missing; `raw`, `object.__getattribute__` at the end of `__getattr__`) or by setting one. -/
inductive Att (A V α : Type) where
  | ret (r : Res α)
  | get (a : A) (k : V → Att A V α)
  | raw (a : A) (k : V → Att A V α)
  | set (a : A) (v : V) (k : Att A V α)

/-- One piece of code after another. -/
def Att.bind {A V α β : Type} (l : Att A V α) (f : α → Att A V β) : Att A V β :=
  match l with
  | .ret (.error e) => .ret (.error e)
  | .ret (.ok a) => f a
  | .get a k => .get a fun v => (k v).bind f
  | .raw a k => .raw a fun v => (k v).bind f
  | .set a v k => .set a v (k.bind f)

section
variable {A V α : Type} [DecidableEq A]

/-- One step of a call: the attributes of the object, and the rest of the call.  `LazyMixin.__getattr__`, `gitdb/util.py` 250-257. -/
def Att.step (setCache : A → Att A V Unit) (s : A → Option V) : Att A V α → (A → Option V) × Att A V α
  | .ret r => (s, .ret r)
  | .get a k =>
    match s a with
    | some v => (s, k v)
    | none => (s, (setCache a).bind fun _ => .raw a k)
  | .raw a k =>
    match s a with
    | some v => (s, k v)
    | none => (s, .ret (.error .attributeError))
  | .set a v k => (fun b => if b = a then some v else s b, k)

/-- An object and the threads that use it. -/
structure LazySys (A V α : Type) where
  attrs : A → Option V
  threads : List (Att A V α)

/-- One step of thread `i`. -/
def LazySys.step (setCache : A → Att A V Unit) (s : LazySys A V α) (i : Nat) : LazySys A V α :=
  match s.threads[i]? with
  | none => s
  | some t => let r := t.step setCache s.attrs; ⟨r.1, s.threads.set i r.2⟩

/-- Steps in the order of a schedule. -/
def LazySys.run (setCache : A → Att A V Unit) (s : LazySys A V α) (sched : List Nat) : LazySys A V α :=
  sched.foldl (LazySys.step setCache) s
end

/-! ## Indices -/

/-- Attributes of a `PackIndexFile`, `gitdb/pack.py` 250-252 and 297-299. -/
inductive IAttr where
  | cursor | version | entry | offset | sha | crc | fanout | crcOff | packOff | pack64Off
  deriving DecidableEq

/-- Their values: the mapped file, a number (for `entry`, `offset`, `sha`, `crc`: the version whose method is bound), or a table. -/
inductive IVal where
  | map (b : Bytes)
  | num (n : Nat)
  | table (l : List Nat)
  deriving DecidableEq

def IVal.toMap : IVal → Bytes
  | .map b => b
  | _ => []
def IVal.toNum : IVal → Nat
  | .num n => n
  | _ => 0
def IVal.toTable : IVal → List Nat
  | .table l => l
  | _ => []

/-- Code on a `PackIndexFile`. -/
abbrev ICode (α : Type) := Att IAttr IVal α

/-- `size()`, `gitdb/pack.py` 384-386. -/
def iSize (k : Nat → ICode Unit) : ICode Unit := .get .fanout fun f => k (f.toTable.getD 255 0)

/-- `_initialize`, `gitdb/pack.py` 358-366, with `_read_fanout`, 368-376. -/
def iInitialize : ICode Unit :=
  .get .version fun v => .get .cursor fun c =>
    match readFanout c.toMap (if v.toNum = 2 then 8 else 0) with
    | .error e => .ret (.error e)
    | .ok f =>
      .set .fanout (.table f) <| .get .version fun v =>
        if v.toNum = 2 then
          iSize fun n => .set .crcOff (.num (shaListOff + n * 20)) <|
          .get .crcOff fun o => iSize fun n => .set .packOff (.num (o.toNum + n * 4)) <|
          .get .packOff fun o => iSize fun n => .set .pack64Off (.num (o.toNum + n * 4)) <| .ret (.ok ())
        else .ret (.ok ())

/-- The loop that binds the methods of the version, `gitdb/pack.py` 297-299, and `_initialize`. -/
def iBind : ICode Unit :=
  .get .version fun v => .set .entry v <| .get .version fun v => .set .offset v <|
  .get .version fun v => .set .sha v <| .get .version fun v => .set .crc v <| iInitialize

/-- `_set_cache_(attr)`, `gitdb/pack.py` 267-304. -/
def iSetCache (file : Bytes) : IAttr → ICode Unit
  | .cursor => .set .cursor (.map file) (.ret (.ok ()))
  | _ => .get .cursor fun c =>
    .set .version (.num (if c.toMap.take 4 = [0xff, 0x74, 0x4f, 0x63] then 2 else 1)) <| .get .version fun v =>
      if v.toNum = 2 then
        match unpackL c.toMap 4 with
        | .error e => .ret (.error e)
        | .ok id => .get .version fun v => if id = v.toNum then iBind else .ret (.error .assertionError)
      else iBind

/-- `_sha_v1`, `_sha_v2`, `gitdb/pack.py` 315-318, 345-348. -/
def iShaBody (v i : Nat) {α : Type} (k : Bytes → ICode α) : ICode α :=
  .get .cursor fun c => k (if v = 2 then pySlice c.toMap (shaListOff + i * 20) (shaListOff + i * 20 + 20)
    else pySlice c.toMap (1024 + i * 24 + 4) (1024 + i * 24 + 4 + 20))

/-- `_offset_v1`, `_offset_v2`, `gitdb/pack.py` 311-313, 331-343. -/
def iOffsetBody (v i : Nat) : ICode Nat :=
  if v = 2 then
    .get .cursor fun c => .get .packOff fun o =>
      match unpackL c.toMap (o.toNum + i * 4) with
      | .error e => .ret (.error e)
      | .ok offset =>
        if offset &&& 0x80000000 ≠ 0 then
          .get .cursor fun c => .get .pack64Off fun o => .ret (unpackQ c.toMap (o.toNum + (offset - 0x80000000) * 8))
        else .ret (.ok offset)
  else .get .cursor fun c => .ret (unpackL c.toMap (1024 + i * 24))

/-- `_crc_v1`, `_crc_v2`, `gitdb/pack.py` 320-322, 350-352. -/
def iCrcBody (v i : Nat) : ICode Nat :=
  if v = 2 then .get .cursor fun c => .get .crcOff fun o => .ret (unpackL c.toMap (o.toNum + i * 4)) else .ret (.ok 0)

/-- `_entry_v1`, `_entry_v2`, `gitdb/pack.py` 307-309, 327-329. -/
def iEntryBody (v i : Nat) : ICode (Nat × Bytes × Nat) :=
  if v = 2 then (iOffsetBody 2 i).bind fun o => iShaBody 2 i fun b => (iCrcBody 2 i).bind fun c => .ret (.ok (o, b, c))
  else .get .cursor fun c =>
    if 1024 + i * 24 + 24 ≤ c.toMap.length then
      .ret (.ok (beVal (pySlice c.toMap (1024 + i * 24) (1024 + i * 24 + 4)),
        pySlice c.toMap (1024 + i * 24 + 4) (1024 + i * 24 + 4 + 20), 0))
    else .ret (.error .structError)

/-- The bisection of `sha_to_index`, `gitdb/pack.py` 429-441: every look at a name is a look at the cursor. -/
def iBisect (sha : Bytes) (v : Nat) : Nat → Nat → Nat → ICode (Option Nat)
  | 0, _, _ => .ret (.ok none)
  | k + 1, lo, hi =>
    if lo < hi then
      iShaBody v ((lo + hi) / 2) fun mid =>
        if sha < mid then iBisect sha v k lo ((lo + hi) / 2)
        else if sha = mid then .ret (.ok (some ((lo + hi) / 2)))
        else iBisect sha v k ((lo + hi) / 2 + 1) hi
    else .ret (.ok none)

/-- `sha_to_index(sha)`, `gitdb/pack.py` 417-441. -/
def iShaToIndex (sha : Bytes) : ICode (Option Nat) :=
  match sha.head? with
  | none => .ret (.error .indexError)
  | some b => .get .sha fun v =>
    if b.toNat ≠ 0 then
      .get .fanout fun f => .get .fanout fun g =>
        let lo := f.toTable.getD (b.toNat - 1) 0
        let hi := g.toTable.getD b.toNat 0
        iBisect sha v.toNum (hi - lo + 1) lo hi
    else .get .fanout fun g => iBisect sha v.toNum (g.toTable.getD b.toNat 0 - 0 + 1) 0 (g.toTable.getD b.toNat 0)

/-- The loop "find lowest" of `partial_sha_to_index`, `gitdb/pack.py` 466-479. -/
def iBisectLow (sha : Bytes) (v : Nat) : Nat → Nat → Nat → ICode Nat
  | 0, lo, _ => .ret (.ok lo)
  | k + 1, lo, hi =>
    if lo < hi then
      iShaBody v ((lo + hi) / 2) fun mid =>
        if sha < mid then iBisectLow sha v k lo ((lo + hi) / 2)
        else if sha = mid then .ret (.ok ((lo + hi) / 2))
        else iBisectLow sha v k ((lo + hi) / 2 + 1) hi
    else .ret (.ok lo)

/-- The end of `partial_sha_to_index`, `gitdb/pack.py` 481-492. -/
def iPartialEnd (part : Bytes) (n v lo : Nat) : ICode (Option Nat) :=
  .get .fanout fun f =>
    if lo < f.toTable.getD 255 0 then
      iShaBody v lo fun cur =>
        match isEqualCanonicalSha n part cur with
        | .error e => .ret (.error e)
        | .ok false => .ret (.ok none)
        | .ok true => .get .fanout fun f =>
          if lo + 1 < f.toTable.getD 255 0 then
            iShaBody v (lo + 1) fun next =>
              if next ≠ [] ∧ next = cur then .ret (.error .ambiguousObjectName) else .ret (.ok (some lo))
          else .ret (.ok (some lo))
    else .ret (.ok none)

/-- `partial_sha_to_index(partial_bin_sha, canonical_length)`, `gitdb/pack.py` 443-492. -/
def iPartial (part : Bytes) (n : Nat) : ICode (Option Nat) :=
  if part.length < 2 then .ret (.error .valueError)
  else
    match part.head? with
    | none => .ret (.error .indexError)
    | some b => .get .sha fun v =>
      let filled := part ++ List.replicate (20 - part.length) 0
      if b.toNat ≠ 0 then
        .get .fanout fun f => .get .fanout fun g =>
          let lo := f.toTable.getD (b.toNat - 1) 0
          let hi := g.toTable.getD b.toNat 0
          (iBisectLow filled v.toNum (hi - lo + 1) lo hi).bind (iPartialEnd part n v.toNum)
      else .get .fanout fun g =>
        (iBisectLow filled v.toNum (g.toTable.getD b.toNat 0 - 0 + 1) 0 (g.toTable.getD b.toNat 0)).bind (iPartialEnd part n v.toNum)

/-- The loop of `offsets()` for version 1, `gitdb/pack.py` 414. -/
def iOffsetsLoop : List Nat → ICode (List Nat)
  | [] => .ret (.ok [])
  | i :: l => .get .offset fun v => (iOffsetBody v.toNum i).bind fun o => (iOffsetsLoop l).bind fun r => .ret (.ok (o :: r))

/-- `offsets()`, `gitdb/pack.py` 400-415. -/
def iOffsets : ICode (List Nat) :=
  .get .version fun v =>
    if v.toNum = 2 then
      .get .cursor fun c => .get .packOff fun a => .get .pack64Off fun b => .ret (words32 (pySlice c.toMap a.toNum b.toNum))
    else .get .fanout fun f => iOffsetsLoop (List.range (f.toTable.getD 255 0))

/-- What threads call. -/
inductive ICall where
  /-- `version()`, `gitdb/pack.py` 381-382 -/
  | version
  /-- `size()`, 384-386 -/
  | size
  | sha (i : Nat)
  | offset (i : Nat)
  | crc (i : Nat)
  | entry (i : Nat)
  | offsets
  | shaToIndex (name : Bytes)
  | partialSha (part : Bytes) (n : Nat)
  /-- `packfile_checksum()`, 392-394 -/
  | packfileChecksum
  /-- `indexfile_checksum()`, 396-398 -/
  | indexfileChecksum

/-- What calls return. -/
inductive IOut where
  | num (n : Nat)
  | bytes (b : Bytes)
  | entry (o : Nat) (sha : Bytes) (crc : Nat)
  | nums (l : List Nat)
  | found (i : Option Nat)
  deriving DecidableEq

/-- The code of a call. -/
def ICall.code : ICall → ICode IOut
  | .version => .get .version fun v => .ret (.ok (.num v.toNum))
  | .size => .get .fanout fun f => .ret (.ok (.num (f.toTable.getD 255 0)))
  | .sha i => .get .sha fun v => iShaBody v.toNum i fun b => .ret (.ok (.bytes b))
  | .offset i => .get .offset fun v => (iOffsetBody v.toNum i).bind fun o => .ret (.ok (.num o))
  | .crc i => .get .crc fun v => (iCrcBody v.toNum i).bind fun c => .ret (.ok (.num c))
  | .entry i => .get .entry fun v => (iEntryBody v.toNum i).bind fun e => .ret (.ok (.entry e.1 e.2.1 e.2.2))
  | .offsets => iOffsets.bind fun l => .ret (.ok (.nums l))
  | .shaToIndex name => (iShaToIndex name).bind fun r => .ret (.ok (.found r))
  | .partialSha part n => (iPartial part n).bind fun r => .ret (.ok (.found r))
  | .packfileChecksum => .get .cursor fun c => .ret (.ok (.bytes (pySlice c.toMap (c.toMap.length - 40) (c.toMap.length - 20))))
  | .indexfileChecksum => .get .cursor fun c => .ret (.ok (.bytes (c.toMap.drop (c.toMap.length - 20))))

/-! ## Packs -/

/-- Attributes of a `PackFile`, `gitdb/pack.py` 513. -/
inductive PAttr where
  | cursor | version | size
  deriving DecidableEq

abbrev PCode (α : Type) := Att PAttr IVal α

/-- `_set_cache_(attr)`, `gitdb/pack.py` 532-542. -/
def pSetCache (file : Bytes) (_ : PAttr) : PCode Unit :=
  .set .cursor (.map file) <| .get .cursor fun c =>
    match unpackL c.toMap 0, unpackL c.toMap 4, unpackL c.toMap 8 with
    | .ok t, .ok v, .ok n =>
      .set .version (.num v) <| .set .size (.num n) <| if t ≠ packSignature then .ret (.error .parseError) else .ret (.ok ())
    | _, _, _ => .ret (.error .structError)

/-- What threads call. -/
inductive PCall where
  /-- `version()`, `gitdb/pack.py` 574-576 -/
  | version
  /-- `size()`, 570-572 -/
  | size
  /-- `stream(offset)`, 633-638 -/
  | stream (offset : Nat)
  /-- `collect_streams(offset)`, 597-620; `fuel` bounds the length of the chain -/
  | collect (fuel offset : Nat)
  /-- `checksum()`, 586-588 -/
  | checksum

/-- What calls return. -/
inductive POut where
  | num (n : Nat)
  | object (o : PackObj)
  | objects (l : List PackObj)
  | bytes (b : Bytes)

/-- The code of a call. -/
def PCall.code : PCall → PCode POut
  | .version => .get .version fun v => .ret (.ok (.num v.toNum))
  | .size => .get .size fun v => .ret (.ok (.num v.toNum))
  | .stream offset => .get .cursor fun c => .ret ((packObjectAt c.toMap (if offset = 0 then 12 else offset)).map .object)
  | .collect fuel offset => .get .cursor fun c => .ret ((PackFile.collectStreams ⟨c.toMap, 0, 0⟩ fuel offset).map .objects)
  | .checksum => .get .cursor fun c => .get .cursor fun d => .ret (.ok (.bytes (c.toMap.drop (d.toMap.length - 20))))

end GitDB
