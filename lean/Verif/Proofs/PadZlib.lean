import Verif.Proofs.ToyZlib
/-!
# A codec whose compressor puts out much before the first byte of data
-/
set_option autoImplicit false

namespace GitDB

/-- Sixteen bytes without output. -/
def padding : Bytes := List.replicate 16 252

/-- Like `toyZlib`, but every byte of data is preceded by padding (as the tables of a deflate block precede
its data). -/
def padZlib : Zlib where
  out x := (toy x).1
  stop x := (toy x).2.1
  bad x := (toy x).2.2
  taken := toyTaken
  Comp := Unit
  cinit _ := ()
  ccompress c d := (c, d.flatMap fun b => padding ++ [254, b])
  cflush _ := [255]

theorem toy_padding (b : UInt8) (r : Bytes) :
    toy (padding ++ [254, b] ++ r) = bump 16 [] (bump 2 [b] (toy r)) := by
  simp only [padding, List.replicate, List.cons_append, List.nil_append, toy_pad, toy_esc]
  simp only [bump, List.nil_append, Option.map_map, Prod.mk.injEq, and_true, true_and]
  rfl

theorem toy_padded (r : Bytes) : ∀ (d : Bytes),
    toy ((d.flatMap fun b => padding ++ [254, b]) ++ r) = bump (18 * d.length) d (toy r)
  | [] => by simp [bump]
  | b :: d => by
    rw [List.flatMap_cons, List.append_assoc, toy_padding, toy_padded r d]
    simp only [bump, List.nil_append, List.cons_append, List.length_cons, Prod.mk.injEq, true_and, and_true,
      Option.map_map]
    congr 1

theorem padZlib_emit (ds : List Bytes) (c : Unit) :
    toy (padZlib.emit c ds) = (ds.flatten, some (padZlib.emit c ds).length, false) := by
  induction ds with
  | nil => exact toy_zero []
  | cons d ds ih =>
    have : padZlib.emit c (d :: ds) = (d.flatMap fun b => padding ++ [254, b]) ++ padZlib.emit c ds := rfl
    rw [this, toy_padded, ih]
    simp only [bump, List.flatten_cons, Option.map_some, List.length_append, Prod.mk.injEq, Option.some.injEq,
      true_and, and_true]
    clear this ih
    have hl : (d.flatMap fun b => padding ++ [254, b]).length = 18 * d.length := by
      induction d with
      | nil => rfl
      | cons b d ihd =>
        rw [List.flatMap_cons, List.length_append, ihd, List.length_cons]
        have : (padding ++ [254, b]).length = 18 := rfl
        omega
    omega

theorem padZlib_laws : ZlibLaws padZlib where
  out_append := toyZlib_laws.out_append
  stop_nil := toyZlib_laws.stop_nil
  stop_le := toyZlib_laws.stop_le
  stop_append := toyZlib_laws.stop_append
  stop_out := toyZlib_laws.stop_out
  stop_take := toyZlib_laws.stop_take
  stop_good := toyZlib_laws.stop_good
  bad_append := toyZlib_laws.bad_append
  taken_le := toyZlib_laws.taken_le
  taken_out := toyZlib_laws.taken_out
  taken_stop := toyZlib_laws.taken_stop
  emit_stop := fun _ ds => by
    have := padZlib_emit ds ()
    exact congrArg (fun x => x.2.1) this
  emit_out := fun _ ds => by
    have := padZlib_emit ds ()
    exact congrArg (fun x => x.1) this

end GitDB
