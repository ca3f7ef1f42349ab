import Verif.Model.Contains
/-!
# C49: the `in` operator

The property is false of the code: the operator never looks at the name.
-/
set_option autoImplicit false

namespace GitDB.Props
open GitDB

/-- **C49, full statement** (not true): `sha in db` is the answer of `has_object`. -/
def C49_full (db : DbObject) (hasObject : Bytes → Bool) : Prop :=
  ∀ sha, db.contains sha = .ok (hasObject sha)

/-- **C49, finding.**  On every database of this library `sha in db` raises `AttributeError`, for every name,
whatever is stored. -/
theorem C49_raises (db : DbObject) (h : ∀ b, ("has_obj", b) ∉ db.extra) (sha : Bytes) :
    db.contains sha = .error .attributeError := by
  have hl : db.extra.lookup "has_obj" = none := by
    rw [List.lookup_eq_none_iff]
    intro x hx
    obtain ⟨n, b⟩ := x
    by_cases hn : "has_obj" = n
    · subst hn; exact absurd hx (h b)
    · simpa using hn
  simp only [DbObject.contains, DbObject.getattr, hl]
  have : "has_obj" ∉ instanceAttrs ++ db.cls.mro.flatMap PyClass.body := by
    cases db.cls <;> decide
  rw [if_neg this]

/-- **C49, finding.**  Even if a program provides the attribute `has_obj`, the answer does not depend on the
name, so it is wrong as soon as some object is there and another is not. -/
theorem C49_not_full (db : DbObject) (hasObject : Bytes → Bool) (a b : Bytes)
    (ha : hasObject a = true) (hb : hasObject b = false) : ¬ C49_full db hasObject := by
  intro h
  have h1 := h a
  have h2 := h b
  simp only [DbObject.contains] at h1 h2
  rw [h1, ha, hb] at h2
  simp at h2

/-- A memory database, nothing added to it; a pack database with an attribute `has_obj`. -/
example : (DbObject.mk .memory []).contains [1] = .error .attributeError ∧
    (DbObject.mk .packed [("has_obj", true)]).contains [1] = .ok true ∧
    (DbObject.mk .packed []).getattr "has_object" = .ok true := by
  decide

/-- The base classes in the class statements: `gitdb/db/base.py` 25, 66, 108, 136, 166, `gitdb/db/git.py` 22, `gitdb/db/loose.py` 63, `gitdb/db/mem.py` 32, `gitdb/db/pack.py` 32,
`gitdb/db/ref.py` 13, `gitdb/util.py` 237. -/
def pyBases : PyClass → List PyClass
  | .objectDBR | .objectDBW | .fileDBBase | .cachingDB | .lazyMixin => []
  | .compoundDB => [.objectDBR, .lazyMixin, .cachingDB]
  | .gitDB => [.fileDBBase, .objectDBW, .compoundDB]
  | .looseObjectDB => [.fileDBBase, .objectDBR, .objectDBW]
  | .memoryDB => [.objectDBR, .objectDBW]
  | .packedDB => [.fileDBBase, .objectDBR, .cachingDB, .lazyMixin]
  | .referenceDB => [.compoundDB]

/-- Python's rule for merging orders: the first head of a list that is in the tail of none. -/
def c3merge : Nat → List (List PyClass) → Option (List PyClass)
  | 0, _ => none
  | n + 1, ls =>
    if ls.all List.isEmpty then some []
    else match ls.findSome? (fun l => l.head?.bind fun h => if ls.all (fun m => !m.tail.contains h) then some h else none) with
      | none => none
      | some h => (c3merge n (ls.map fun l => if l.head? = some h then l.tail else l)).map (h :: ·)

/-- The method resolution order that Python computes from the class statements. -/
def c3order : Nat → PyClass → Option (List PyClass)
  | 0, _ => none
  | n + 1, c => ((pyBases c).mapM (c3order n)).bind fun ls => (c3merge 12 (ls ++ [pyBases c])).map (c :: ·)

/-- The class of a database. -/
def DbClass.py : DbClass → PyClass
  | .compound => .compoundDB
  | .git => .gitDB
  | .loose => .looseObjectDB
  | .memory => .memoryDB
  | .packed => .packedDB
  | .reference => .referenceDB

/-- **C49** the classes that are searched for an attribute are those that Python finds from the class statements, in its order. -/
theorem C49_order (k : DbClass) : c3order 4 (DbClass.py k) = some k.mro := by cases k <;> decide +kernel

/-- An order that Python rejects. -/
example : c3merge 12 [[.objectDBR, .objectDBW], [.objectDBW, .objectDBR]] = none := by decide +kernel

end GitDB.Props
