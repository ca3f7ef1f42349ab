import Verif.Model.Pack
/-!
# Attributes filled on first access: `LazyMixin`, `gitdb/util.py` 240-271, in `PackFile` and `PackIndexFile`

`PackFile.load` and `IndexFile.load` describe the first access to a fresh object.  Here the objects are described
with the attributes they have at any time, so that repeated accesses, accesses after an exception and accesses
after `close()` can be talked about.
-/
set_option autoImplicit false

namespace GitDB

/-- `LazyMixin.__getattr__`, `gitdb/util.py` 250-257: an attribute which exists is returned; otherwise
`_set_cache_` runs and the attribute is looked up once more. -/
def lazyGet {S V : Type} (get : S → Option V) (setCache : S → S × Res Unit) (s : S) : S × Res V :=
  match get s with
  | some v => (s, .ok v)
  | none =>
    match setCache s with
    | (s, .error e) => (s, .error e)
    | (s, .ok ()) =>
      match get s with
      | some v => (s, .ok v)
      | none => (s, .error .attributeError)

/-- Attributes of a `PackFile`, `gitdb/pack.py` 513: `_cursor` does not exist, is `None` (after `close`), or is a
cursor on the content of the file. -/
structure PackAttrs where
  cursor : Option (Option Bytes) := none
  version : Option Nat := none
  size : Option Nat := none
  deriving DecidableEq, Repr

/-- `PackFile._set_cache_`, `gitdb/pack.py` 532-542.  `file` is the content of the file, `none` if it cannot be
opened. -/
def PackAttrs.setCache (file : Option Bytes) (s : PackAttrs) : PackAttrs × Res Unit :=
  match file with
  | none => (s, .error .fileNotFound)
  | some data =>
    let s := { s with cursor := some (some data) }
    match unpackL data 0, unpackL data 4, unpackL data 8 with
    | .ok t, .ok v, .ok n =>
      let s := { s with version := some v, size := some n }
      if t ≠ packSignature then (s, .error .parseError) else (s, .ok ())
    | _, _, _ => (s, .error .structError)

/-- Calls on a `PackFile`. -/
inductive PackCall where
  /-- `version()`, `gitdb/pack.py` 574-576 -/
  | version
  /-- `size()`, 570-572 -/
  | size
  /-- `stream(offset)`, 633-638 (`info(offset)` likewise) -/
  | stream (offset : Nat)
  /-- `close()`, 528-530 -/
  | close
  deriving DecidableEq, Repr

/-- What a call returns. -/
inductive PackAnswer where
  | number (n : Nat)
  | object (o : PackObj)
  | nothing

/-- One call. -/
def PackAttrs.call (file : Option Bytes) (s : PackAttrs) : PackCall → PackAttrs × Res PackAnswer
  | .version =>
    let (s, r) := lazyGet PackAttrs.version (PackAttrs.setCache file) s
    (s, r.map .number)
  | .size =>
    let (s, r) := lazyGet PackAttrs.size (PackAttrs.setCache file) s
    (s, r.map .number)
  | .stream offset =>
    match lazyGet PackAttrs.cursor (PackAttrs.setCache file) s with
    | (s, .error e) => (s, .error e)
    | (s, .ok none) => (s, .error .attributeError)     -- `None.use_region`
    | (s, .ok (some data)) => (s, (packObjectAt data (if offset = 0 then 12 else offset)).map .object)
  | .close => ({ s with cursor := some none }, .ok .nothing)

/-- A sequence of calls; an exception does not end the life of the object. -/
def PackAttrs.calls (file : Option Bytes) : PackAttrs → List PackCall → PackAttrs × List (Res PackAnswer)
  | s, [] => (s, [])
  | s, c :: cs =>
    let (s, r) := s.call file c
    let (s, rs) := PackAttrs.calls file s cs
    (s, r :: rs)

/-- Attributes of a `PackIndexFile`: `_cursor` as above, `_version`, `_fanout_table`, and whether the methods
`entry`, `offset`, `sha`, `crc` have been bound to the ones of the version. -/
structure IndexAttrs where
  cursor : Option (Option Bytes) := none
  version : Option Nat := none
  fanout : Option (List Nat) := none
  bound : Option Nat := none
  deriving DecidableEq, Repr

/-- `_cursor`, `gitdb/pack.py` 270-280.  (The limit on the size of the window is not modelled.) -/
def IndexAttrs.getCursor (file : Option Bytes) (s : IndexAttrs) : IndexAttrs × Res (Option Bytes) :=
  lazyGet IndexAttrs.cursor (fun s =>
    match file with
    | none => (s, .error .fileNotFound)
    | some data => ({ s with cursor := some (some data) }, .ok ())) s

/-- The other attributes, `gitdb/pack.py` 281-303 and `_initialize` 358-366.  (The offsets computed in 363-365 follow
from the version and the fanout table.) -/
def IndexAttrs.setCache (file : Option Bytes) (s : IndexAttrs) : IndexAttrs × Res Unit :=
  match s.getCursor file with
  | (s, .error e) => (s, .error e)
  | (s, .ok none) => (s, .error .attributeError)       -- `None.map`
  | (s, .ok (some map)) =>
    let version := if map.take 4 = [0xff, 0x74, 0x4f, 0x63] then 2 else 1
    let s := { s with version := some version }
    let check : Res Unit :=
      if version = 2 then
        match unpackL map 4 with
        | .error e => .error e
        | .ok v => if v = 2 then .ok () else .error .assertionError
      else .ok ()
    match check with
    | .error e => (s, .error e)
    | .ok () =>
      let s := { s with bound := some version }
      match readFanout map (if version = 2 then 8 else 0) with
      | .error e => (s, .error e)
      | .ok fanout => ({ s with fanout := some fanout }, .ok ())

/-- Calls on a `PackIndexFile`. -/
inductive IndexCall where
  /-- `version()`, `gitdb/pack.py` 381-382 -/
  | version
  /-- `size()`, 384-386 -/
  | size
  /-- `sha(i)`, 315-318, 345-348 -/
  | sha (i : Nat)
  /-- `close()`, 263-265 -/
  | close
  deriving DecidableEq, Repr

/-- What a call returns. -/
inductive IndexAnswer where
  | number (n : Nat)
  | name (b : Bytes)
  | nothing
  deriving DecidableEq, Repr

/-- One call.  `sha` is found with `__getattr__` until it is bound (297-299); then it reads the map. -/
def IndexAttrs.call (file : Option Bytes) (s : IndexAttrs) : IndexCall → IndexAttrs × Res IndexAnswer
  | .version =>
    let (s, r) := lazyGet IndexAttrs.version (IndexAttrs.setCache file) s
    (s, r.map .number)
  | .size =>
    let (s, r) := lazyGet IndexAttrs.fanout (IndexAttrs.setCache file) s
    (s, r.map fun f => .number (f.getD 255 0))
  | .sha i =>
    match lazyGet IndexAttrs.bound (IndexAttrs.setCache file) s with
    | (s, .error e) => (s, .error e)
    | (s, .ok v) =>
      match s.getCursor file with
      | (s, .error e) => (s, .error e)
      | (s, .ok none) => (s, .error .attributeError)
      | (s, .ok (some map)) =>
        (s, .ok (.name (if v = 2 then pySlice map (shaListOff + i * 20) (shaListOff + i * 20 + 20)
          else pySlice map (1024 + i * 24 + 4) (1024 + i * 24 + 4 + 20))))
  | .close => ({ s with cursor := some none }, .ok .nothing)

/-- A sequence of calls. -/
def IndexAttrs.calls (file : Option Bytes) : IndexAttrs → List IndexCall → IndexAttrs × List (Res IndexAnswer)
  | s, [] => (s, [])
  | s, c :: cs =>
    let (s, r) := s.call file c
    let (s, rs) := IndexAttrs.calls file s cs
    (s, r :: rs)

end GitDB
