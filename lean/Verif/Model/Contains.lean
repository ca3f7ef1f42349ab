import Verif.Model.Basic
/-!
# The `in` operator: `gitdb/db/base.py` 30-31

`sha in db` calls `ObjectDBR.__contains__`, which returns the attribute `has_obj` of the database; Python
then takes the truth value.  No class overrides `__contains__`.  So the operator is attribute lookup, which is
modelled with the names defined in the classes of `gitdb/db`.

Simplifications: attributes all objects have (`__class__`, …) are left out, none of them is called `has_obj`;
of a value only its truth value is kept.
-/
set_option autoImplicit false

namespace GitDB

/-- The classes which occur in the method resolution orders. -/
inductive PyClass where
  | objectDBR | objectDBW | fileDBBase | cachingDB | lazyMixin
  | compoundDB | gitDB | looseObjectDB | memoryDB | packedDB | referenceDB
  deriving DecidableEq, Repr

/-- Names defined in the body of a class: `gitdb/db/base.py` 25-278, `gitdb/db/git.py` 22-85,
`gitdb/db/loose.py` 63-268, `gitdb/db/mem.py` 32-110, `gitdb/db/pack.py` 32-206, `gitdb/db/ref.py` 13-82,
`gitdb/util.py` 237-266. -/
def PyClass.body : PyClass → List String
  | .objectDBR => ["__contains__", "has_object", "info", "stream", "size", "sha_iter"]
  | .objectDBW => ["__init__", "set_ostream", "ostream", "store"]
  | .fileDBBase => ["__init__", "root_path", "db_path"]
  | .cachingDB => ["update_cache"]
  | .lazyMixin => ["__slots__", "__getattr__", "_set_cache_"]
  | .compoundDB => ["_set_cache_", "_db_query", "has_object", "info", "stream", "size", "sha_iter",
      "databases", "update_cache", "partial_to_complete_sha_hex"]
  | .gitDB => ["PackDBCls", "LooseDBCls", "ReferenceDBCls", "packs_dir", "loose_dir", "alternates_dir",
      "__init__", "_set_cache_", "store", "ostream", "set_ostream"]
  | .looseObjectDB => ["stream_chunk_size", "new_objects_mode", "__init__", "object_path",
      "readable_db_object_path", "partial_to_complete_sha_hex", "_map_loose_object", "set_ostream", "info",
      "stream", "has_object", "store", "sha_iter", "size"]
  | .memoryDB => ["__init__", "set_ostream", "store", "has_object", "info", "stream", "size", "sha_iter",
      "stream_copy"]
  | .packedDB => ["_sort_interval", "__init__", "_set_cache_", "_sort_entities", "_pack_info", "has_object",
      "info", "stream", "sha_iter", "size", "store", "update_cache", "entities", "partial_to_complete_sha"]
  | .referenceDB => ["ObjectDBCls", "__init__", "_set_cache_", "_update_dbs_from_ref_file", "update_cache"]

/-- The database classes. -/
inductive DbClass where
  | compound | git | loose | memory | packed | reference
  deriving DecidableEq, Repr

/-- Method resolution order, from the class statements: `gitdb/db/base.py` 166, `gitdb/db/git.py` 22,
`gitdb/db/loose.py` 63, `gitdb/db/mem.py` 32, `gitdb/db/pack.py` 32, `gitdb/db/ref.py` 13. -/
def DbClass.mro : DbClass → List PyClass
  | .compound => [.compoundDB, .objectDBR, .lazyMixin, .cachingDB]
  | .git => [.gitDB, .fileDBBase, .objectDBW, .compoundDB, .objectDBR, .lazyMixin, .cachingDB]
  | .loose => [.looseObjectDB, .fileDBBase, .objectDBR, .objectDBW]
  | .memory => [.memoryDB, .objectDBR, .objectDBW]
  | .packed => [.packedDB, .fileDBBase, .objectDBR, .cachingDB, .lazyMixin]
  | .reference => [.referenceDB, .compoundDB, .objectDBR, .lazyMixin, .cachingDB]

/-- A database object: its class, and the attributes which are defined by the program using it (assigned
to the object, or defined in a subclass), with their truth values. -/
structure DbObject where
  cls : DbClass
  extra : List (String × Bool)
  deriving Repr

/-- Attributes set by `_set_cache_` for a missing name, `gitdb/util.py` 248-266 with
`gitdb/db/base.py` 173-179, `gitdb/db/git.py` 44-72, `gitdb/db/pack.py` 51-55, `gitdb/db/ref.py` 26-32;
and the attributes set by the constructors (`gitdb/db/base.py` 71, 121, `gitdb/db/loose.py` 79-83,
`gitdb/db/mem.py` 41-44, `gitdb/db/pack.py` 48-49, `gitdb/db/ref.py` 24) or in methods (`gitdb/db/loose.py`
142, `gitdb/db/pack.py` 77). -/
def instanceAttrs : List String :=
  ["_dbs", "_loose_db", "_db_cache", "_entities", "_ostream", "_root_path", "_hexsha_to_file",
    "_fd_open_flags", "_db", "_cache", "_hit_count", "_st_mtime", "_ref_file"]

/-- `getattr(db, name)`, as a truth value: everything defined by gitdb itself is a method or a
value which is true, except that the truth value of instance attributes is not modelled (they all have
other names).  A missing attribute first goes through `LazyMixin.__getattr__` if the class has it, and in the end
raises `AttributeError`. -/
def DbObject.getattr (db : DbObject) (name : String) : Res Bool :=
  match db.extra.lookup name with
  | some b => .ok b
  | none =>
    if name ∈ instanceAttrs ++ db.cls.mro.flatMap PyClass.body then .ok true
    else .error .attributeError

/-- `sha in db`: `ObjectDBR.__contains__`, `gitdb/db/base.py` 30-31. -/
def DbObject.contains (db : DbObject) (_sha : Bytes) : Res Bool := db.getattr "has_obj"

end GitDB
