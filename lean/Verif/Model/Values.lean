import Verif.Model.Names
/-!
# Value objects: `gitdb/base.py`

The classes derive from `tuple` (`IStream` from `list`); an object is its class and its items, attributes are
properties reading an item.  The set of attributes of a class is the one of its body and its bases.
-/
set_option autoImplicit false

namespace GitDB

/-- Items of the objects.  `V` is the type of the stream objects. -/
inductive PyVal (V : Type) where
  | none
  | name (n : PyName)
  | int (n : Nat)
  | stream (v : V)
  | exc (e : Err)
  deriving DecidableEq, Repr

/-- The classes of `gitdb/base.py`. -/
inductive BaseClass where
  | oInfo | oPackInfo | oDeltaPackInfo | oStream | oDeltaStream | oPackStream | oDeltaPackStream
  | iStream | invalidOInfo
  deriving DecidableEq, Repr

/-- Names of properties. -/
inductive BaseAttr where
  | binsha | hexsha | type | typeId | size | packOffset | deltaInfo | stream | error
  deriving DecidableEq, Repr

/-- An instance.  `dict` is its `__dict__`: all classes but `ODeltaStream` (`gitdb/base.py` 147-161) have `__slots__`, and no instance
dictionary. -/
structure PyTuple (V : Type) where
  cls : BaseClass
  items : List (PyVal V)
  dict : List (BaseAttr × PyVal V) := []
  deriving DecidableEq, Repr

variable {V : Type}

/-- `OInfo(sha, type, size)`, `gitdb/base.py` 36-37. -/
def newOInfo (sha type size : PyVal V) : PyTuple V := { cls := .oInfo, items := [sha, type, size] }
/-- `OPackInfo(packoffset, type, size)`, `gitdb/base.py` 76-77. -/
def newOPackInfo (packoffset type size : PyVal V) : PyTuple V := { cls := .oPackInfo, items := [packoffset, type, size] }
/-- `ODeltaPackInfo(packoffset, type, size, delta_info)`, `gitdb/base.py` 111-112. -/
def newODeltaPackInfo (packoffset type size deltaInfo : PyVal V) : PyTuple V :=
  { cls := .oDeltaPackInfo, items := [packoffset, type, size, deltaInfo] }
/-- `OStream(sha, type, size, stream)`, `gitdb/base.py` 128-130. -/
def newOStream (sha type size stream : PyVal V) : PyTuple V := { cls := .oStream, items := [sha, type, size, stream] }
/-- `ODeltaStream(sha, type, size, stream)`, `gitdb/base.py` 151-153. -/
def newODeltaStream (sha type size stream : PyVal V) : PyTuple V := { cls := .oDeltaStream, items := [sha, type, size, stream] }
/-- `OPackStream(packoffset, type, size, stream)`, `gitdb/base.py` 170-172. -/
def newOPackStream (packoffset type size stream : PyVal V) : PyTuple V :=
  { cls := .oPackStream, items := [packoffset, type, size, stream] }
/-- `ODeltaPackStream(packoffset, type, size, delta_info, stream)`, `gitdb/base.py` 189-190. -/
def newODeltaPackStream (packoffset type size deltaInfo stream : PyVal V) : PyTuple V :=
  { cls := .oDeltaPackStream, items := [packoffset, type, size, deltaInfo, stream] }
/-- `IStream(type, size, stream, sha=None)`, `gitdb/base.py` 213-217. -/
def newIStream (type size stream : PyVal V) (sha : PyVal V := .none) : PyTuple V :=
  { cls := .iStream, items := [sha, type, size, stream, .none] }
/-- `InvalidOInfo.__new__(InvalidOInfo, sha, exc)`, also of its subclass `InvalidOStream`, `gitdb/base.py` 291-292. -/
def bareInvalidOInfo (sha exc : PyVal V) : PyTuple V := { cls := .invalidOInfo, items := [sha, exc] }
/-- `tuple.__init__(self, *args)` for an instance of a class that has its own `__init__`.  This is `object.__init__`, which then refuses
arguments (CPython, `Objects/typeobject.c`: `object_init`). -/
def tupleInit (args : List (PyVal V)) : Res Unit := if args.isEmpty then .ok () else .error .typeError
/-- `InvalidOInfo(sha, exc)` and `InvalidOStream(sha, exc)`, `gitdb/base.py` 291-295: `__new__`, then `__init__`, which calls
`tuple.__init__` with a pair as its one argument (only the number of arguments matters). -/
def newInvalidOInfo (sha exc : PyVal V) : Res (PyTuple V) :=
  match tupleInit [sha] with
  | .error e => .error e
  | .ok () => .ok (bareInvalidOInfo sha exc)

/-- `self[i]`. -/
def PyTuple.item (t : PyTuple V) (i : Nat) : Res (PyVal V) :=
  match t.items[i]? with
  | some x => .ok x
  | none => .error .indexError

/-- `bin_to_hex(x)`: needs `bytes`. -/
def hexOf : PyVal V → Res (PyVal V)
  | .name (.bytes b) => .ok (.name (.bytes (binToHex b)))
  | _ => .error .typeError

/-- `type_to_type_id_map[x]`, `gitdb/fun.py` 44-51. -/
def idOf : PyVal V → Res (PyVal V)
  | .name n => (typeToTypeId n).map .int
  | _ => .error .keyError

/-- `type_id_to_type_map[x]`, `gitdb/fun.py` 33-42. -/
def typeOf : PyVal V → Res (PyVal V)
  | .int n => (typeIdToType n).map .name
  | _ => .error .keyError

/-- Attribute access; `sizeOf` is the `size` attribute of stream objects.
`OInfo` 43-62, `OPackInfo` 84-98, `ODeltaPackInfo` 115-117, `OStream` 140-142, `ODeltaStream` 157-159, `OPackStream`
178-180, `ODeltaPackStream` 196-198, `IStream` 220-278, `InvalidOInfo` 297-308 in `gitdb/base.py`. -/
def PyTuple.attr (sizeOf : V → Res Nat) (t : PyTuple V) (a : BaseAttr) : Res (PyVal V) :=
  match t.cls, a with
  -- OInfo, OStream, ODeltaStream
  | .oInfo, .binsha | .oStream, .binsha | .oDeltaStream, .binsha => t.item 0
  | .oInfo, .hexsha | .oStream, .hexsha | .oDeltaStream, .hexsha => t.item 0 >>= hexOf
  | .oInfo, .type | .oStream, .type | .oDeltaStream, .type => t.item 1
  | .oInfo, .typeId | .oStream, .typeId | .oDeltaStream, .typeId => t.item 1 >>= idOf
  | .oInfo, .size | .oStream, .size => t.item 2
  | .oDeltaStream, .size => do
    match (← t.item 3) with
    | .stream v => (sizeOf v).map .int
    | _ => .error .attributeError
  | .oStream, .stream | .oDeltaStream, .stream => t.item 3
  -- OPackInfo and the classes derived from it
  | .oPackInfo, .packOffset | .oDeltaPackInfo, .packOffset | .oPackStream, .packOffset
  | .oDeltaPackStream, .packOffset => t.item 0
  | .oPackInfo, .type | .oDeltaPackInfo, .type | .oPackStream, .type | .oDeltaPackStream, .type =>
    t.item 1 >>= typeOf
  | .oPackInfo, .typeId | .oDeltaPackInfo, .typeId | .oPackStream, .typeId | .oDeltaPackStream, .typeId => t.item 1
  | .oPackInfo, .size | .oDeltaPackInfo, .size | .oPackStream, .size | .oDeltaPackStream, .size => t.item 2
  | .oDeltaPackInfo, .deltaInfo | .oDeltaPackStream, .deltaInfo => t.item 3
  | .oPackStream, .stream => t.item 3
  | .oDeltaPackStream, .stream => t.item 4
  -- IStream
  | .iStream, .binsha => t.item 0
  | .iStream, .hexsha => t.item 0 >>= hexOf
  | .iStream, .type => t.item 1
  | .iStream, .size => t.item 2
  | .iStream, .stream => t.item 3
  | .iStream, .error => t.item 4
  -- InvalidOInfo
  | .invalidOInfo, .binsha => t.item 0
  | .invalidOInfo, .hexsha => t.item 0 >>= hexOf
  | .invalidOInfo, .error => t.item 1
  -- no property of the class
  | _, _ =>
    match t.dict.lookup a with
    | some v => .ok v
    | none => .error .attributeError

/-- `self[i] = v` of a list. -/
def PyTuple.setItem (t : PyTuple V) (i : Nat) (v : PyVal V) : Res (PyTuple V) :=
  if i < t.items.length then .ok { t with items := t.items.set i v } else .error .indexError

/-- Attribute assignment: only `IStream` has properties with setters, `gitdb/base.py` 229-278; assigning to the properties of the others
raises `AttributeError`.  So do names that are no properties, because of `__slots__`, except for `ODeltaStream`, which has none. -/
def PyTuple.setAttr (t : PyTuple V) (a : BaseAttr) (v : PyVal V) : Res (PyTuple V) :=
  match t.cls, a with
  | .iStream, .binsha => t.setItem 0 v
  | .iStream, .type => t.setItem 1 v
  | .iStream, .size => t.setItem 2 v
  | .iStream, .stream => t.setItem 3 v
  | .iStream, .error => t.setItem 4 v
  | .oDeltaStream, .packOffset | .oDeltaStream, .deltaInfo | .oDeltaStream, .error => .ok { t with dict := (a, v) :: t.dict }
  | _, _ => .error .attributeError

/-- The item whose `read` is called by `read(size)`: `OStream` 137-138, `OPackStream` 175-176, `ODeltaPackStream`
193-194, `IStream` 244-247. -/
def PyTuple.readFrom (t : PyTuple V) : Res (PyVal V) :=
  match t.cls with
  | .oStream | .oDeltaStream | .oPackStream | .iStream => t.item 3
  | .oDeltaPackStream => t.item 4
  | _ => .error .attributeError

end GitDB
