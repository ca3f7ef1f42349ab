import Verif.Proofs.PlainZlib
/-!
# A codec whose compressor leaves ordinary bytes as they are

Real zlib does this for incompressible data ("stored" blocks).
-/
set_option autoImplicit false

namespace GitDB

/-- Code of one byte. -/
def lightByte (b : UInt8) : Bytes := if b.toNat < 251 then [b] else [254, b]

/-- Like `toyZlib`, but bytes below 251 stand for themselves. -/
def lightZlib : Zlib where
  out x := (toy x).1
  stop x := (toy x).2.1
  bad x := (toy x).2.2
  taken := toyTaken
  Comp := Unit
  cinit _ := ()
  ccompress c d := (c, d.flatMap lightByte)
  cflush _ := [255]

theorem toy_light (r : Bytes) : ∀ (d : Bytes),
    toy (d.flatMap lightByte ++ r) = bump (d.flatMap lightByte).length d (toy r)
  | [] => by simp [bump]
  | b :: d => by
    rw [List.flatMap_cons, List.append_assoc]
    unfold lightByte
    by_cases hb : b.toNat < 251
    · have hp : Plain [b] := by intro c hc; simp only [List.mem_singleton] at hc; subst hc; exact hb
      rw [if_pos hb, toy_plain [b] _ hp]
      have ih := toy_light r d
      unfold lightByte at ih
      rw [ih]
      simp only [bump, List.length_singleton, Option.map_map, Prod.mk.injEq,
        List.cons_append, List.nil_append, true_and, and_true]
      congr 1
    · rw [if_neg hb]
      simp only [List.cons_append, List.nil_append, toy_esc]
      have ih := toy_light r d
      unfold lightByte at ih
      rw [ih]
      simp only [bump, List.length_cons, Option.map_map, Prod.mk.injEq,
        List.cons_append, List.nil_append, true_and, and_true]
      congr 1

theorem lightZlib_emit (ds : List Bytes) (c : Unit) :
    toy (lightZlib.emit c ds) = (ds.flatten, some (lightZlib.emit c ds).length, false) := by
  induction ds with
  | nil => exact toy_zero []
  | cons d ds ih =>
    have : lightZlib.emit c (d :: ds) = d.flatMap lightByte ++ lightZlib.emit c ds := rfl
    rw [this, toy_light, ih]
    simp only [bump, List.flatten_cons, Option.map_some, List.length_append, Prod.mk.injEq, Option.some.injEq,
      true_and, and_true]
    omega

theorem lightZlib_laws : ZlibLaws lightZlib where
  out_append := toyZlib_laws.out_append
  stop_nil := toyZlib_laws.stop_nil
  stop_le := toyZlib_laws.stop_le
  stop_append := toyZlib_laws.stop_append
  stop_out := toyZlib_laws.stop_out
  stop_take := toyZlib_laws.stop_take
  stop_good := toyZlib_laws.stop_good
  bad_append := toyZlib_laws.bad_append
  taken_le := toyZlib_laws.taken_le
  taken_out := toyZlib_laws.taken_out
  taken_stop := toyZlib_laws.taken_stop
  emit_stop := fun _ ds => by
    have := lightZlib_emit ds ()
    exact congrArg (fun x => x.2.1) this
  emit_out := fun _ ds => by
    have := lightZlib_emit ds ()
    exact congrArg (fun x => x.1) this

theorem light_plain (p : Bytes) (h : Plain p) : p.flatMap lightByte = p := by
  induction p with
  | nil => rfl
  | cons b p ih =>
    rw [List.flatMap_cons, ih (fun c hc => h c (by simp [hc])), lightByte, if_pos (h b (by simp))]
    rfl

theorem lightZlib_emit_plain (ds : List Bytes) (c : Unit) (h : Plain ds.flatten) :
    lightZlib.emit c ds = ds.flatten ++ [255] := by
  induction ds with
  | nil => rfl
  | cons d ds ih =>
    have : lightZlib.emit c (d :: ds) = d.flatMap lightByte ++ lightZlib.emit c ds := rfl
    rw [this, ih (fun x hx => h x (by simp at hx ⊢; right; exact hx)),
      light_plain d (fun x hx => h x (by simp [hx]))]
    simp

/-- Decompression is that of `toyZlib`. -/
theorem light_decompress : ZDec.decompress lightZlib = ZDec.decompress toyZlib := rfl

theorem light_readZip : Reader.readZip lightZlib = Reader.readZip toyZlib := rfl

theorem light_readCore : ∀ fuel, Reader.readCore lightZlib fuel = Reader.readCore toyZlib fuel
  | 0 => rfl
  | fuel + 1 => by
    funext r n
    simp only [Reader.readCore, light_readCore fuel, light_readZip]

theorem light_parse : Reader.parseHeaderInfo lightZlib = Reader.parseHeaderInfo toyZlib := by
  funext r; simp only [Reader.parseHeaderInfo, light_readCore]

theorem light_read : Reader.read lightZlib = Reader.read toyZlib := by
  funext r n; simp only [Reader.read, Reader.needS, light_parse, light_readCore]

theorem light_new : Reader.new lightZlib = Reader.new toyZlib := by
  funext m; simp only [Reader.new, light_parse]

end GitDB
