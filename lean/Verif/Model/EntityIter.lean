import Verif.Model.Pack
/-!
# Iterating over the objects of a pack by its index
-/
set_option autoImplicit false

namespace GitDB

/-- A generator that yields `get 0`, `get 1`, … below `n`, `gitdb/pack.py` 709-715: the values yielded, and how the
iteration ended.  An exception ends it. -/
def yieldFrom {α : Type} (get : Nat → Res α) : Nat → Nat → List α × Res Unit
  | 0, _ => ([], .ok ())
  | n + 1, i =>
    match get i with
    | .error e => ([], .error e)
    | .ok a => let rest := yieldFrom get n (i + 1); (a :: rest.1, rest.2)

/-- `PackEntity.stream_iter()`, `gitdb/pack.py` 709-715, 859-863.  Each stream is read after the iteration, or before the
next object is asked for; as every stream has its own decompressor and position, this makes no difference. -/
def PackEntity.streamIter (p : PackEntity) (fuel : Nat) : List OStream × Res Unit :=
  yieldFrom (fun i => p.streamAt fuel (p.index.sha i) i) p.index.size 0

/-- `PackEntity.info_iter()`, `gitdb/pack.py` 709-715, 853-857: name, type and size of each `OInfo`. -/
def PackEntity.infoIter (zl : Zlib) (p : PackEntity) (fuel : Nat) : List (Bytes × PyName × Nat) × Res Unit :=
  yieldFrom (fun i => (p.infoAt zl fuel i).map fun r => (p.index.sha i, r)) p.index.size 0

end GitDB
