import Verif.Props.LargeIter
import Verif.Proofs.PackResume
/-!
# Taking up the iteration of a pack: C27

`stream_iter(start_offset)` with an offset other than 0, for packs of any content.
-/
set_option autoImplicit false

namespace GitDB.Props
open GitDB Spec

variable {σ ω ρ ρ' : Type}

/-- **C27** Whatever the file contains: each object `stream_iter` yields is the one that `stream` gives at its
offset, unread, and it lies before the trailer.  (`hn`: offset 0 stands for the first object.) -/
theorem C27_each (zl : Zlib) (p : PackFile) (innerFuel fuel start : Nat) (objs : List PackObj) (res : Res Unit)
    (h : p.streamIter zl innerFuel fuel start = (objs, res)) (o : PackObj) (ho : o ∈ objs) (hn : o.packOffset ≠ 0) :
    p.stream o.packOffset = .ok o ∧ o.packOffset + 20 < p.data.length := by
  obtain ⟨i, hi, rfl⟩ := List.mem_iff_getElem.1 ho
  obtain ⟨_, h2, h3, _⟩ := iterObjects_resume p innerFuel objs fuel _ res h i hi
  refine ⟨?_, h3⟩
  unfold PackFile.stream
  rw [if_neg hn]
  exact h2

/-- **C27** Whatever the file contains, and however the iteration ended: taken up at the offset of an object it
yielded, it yields this object and those after it, and ends in the same way. -/
theorem C27_resume (zl : Zlib) (p : PackFile) (innerFuel fuel start : Nat) (objs : List PackObj) (res : Res Unit)
    (h : p.streamIter zl innerFuel fuel start = (objs, res)) (hf : objs.length < fuel) (i : Nat) (hi : i < objs.length)
    (hn : objs[i].packOffset ≠ 0) (fuel' : Nat) (hf' : fuel ≤ fuel') :
    p.streamIter zl innerFuel fuel' objs[i].packOffset = (objs.drop i, res) := by
  obtain ⟨h1, _, _, h4⟩ := iterObjects_resume p innerFuel objs fuel _ res h i hi
  unfold PackFile.streamIter
  rw [if_neg hn]
  exact iterObjects_fuel p innerFuel (fuel - i) fuel' _ _ res h1 (by rw [List.length_drop]; omega) (by omega)

/-- **C27** From the trailer on there is nothing to yield. -/
theorem C27_past_end (zl : Zlib) (p : PackFile) (innerFuel fuel start : Nat) (hs : start ≠ 0)
    (h : p.data.length ≤ start + 20) : p.streamIter zl innerFuel (fuel + 1) start = ([], .ok ()) := by
  unfold PackFile.streamIter
  rw [if_neg hs, PackFile.iterObjects, if_neg (by omega)]

theorem all2_drop_imp {α β : Type} {R S : α → β → Prop} (h : ∀ a b, R a b → S a b) : ∀ (k : Nat) {l : List α}
    {m : List β}, All2 R l m → All2 S (l.drop k) (m.drop k) := by
  intro k l m hl
  induction hl generalizing k with
  | nil => simpa using All2.nil
  | cons a t ih =>
    cases k with
    | zero =>
      have := ih 0
      exact .cons (h _ _ a) (by simpa using this)
    | succ k => exact ih k

section
variable {read : σ → Int → σ × Res Bytes} {write : ω → Bytes → ω × Res ρ} {iwrite : ω → Bytes → ω × Res ρ'}
  {Rep : σ → Bytes → Prop} {WRep IRep : ω → Bytes → Prop} (zl : Zlib) (L : ZlibLaws zl)
  (hr : BoundedReads read Rep) (hw : ∀ cap, Stores write WRep cap) (hi : ∀ cap, Stores iwrite IRep cap)
  (H : Hash) (fuel : Nat) (level : Int) (l : List (PackIn σ × Bytes))
  (hs : Packables Rep zl level fuel l) (w : ω) (ho : WRep w []) (iw : ω) (hio : IRep iw [])
include L hr hw hi hs ho hio in
/-- **C27** For the packs of `C27_iterate_partial`, started at the offset of any object: this object and the ones
written after it.  Missing for the full statement (`C27_full`): empty objects, large objects and stalling streams. -/
theorem C27_from_partial
    (hc : ∀ q ∈ l, q.2 ≠ [] ∧ q.2.length ≤ chunkSize ∧
      HoweverFed zl level q.2 (fun z => z.length ≤ q.2.length ∨ NoStall zl z)) : ∃ w' iw' psha isha pk p,
    ∃ objs : List PackObj,
    writePack H zl fuel read write (some iwrite) (l.map Prod.fst) none level w iw =
      (w', iw', .ok (psha, some isha)) ∧ WRep w' pk ∧ PackFile.load pk = .ok p ∧ objs.length = l.length ∧
    ∀ (k : Nat) (hk : k < objs.length),
      (∀ innerFuel fuel', pk.length + 3 ≤ innerFuel → l.length < fuel' →
        p.streamIter zl innerFuel fuel' objs[k].packOffset = (objs.drop k, .ok ())) ∧
      All2 (fun (q : PackIn σ × Bytes) (o : PackObj) => o.typeId = q.1.typeId ∧ o.size = q.2.length ∧
        (o.stream.read zl (-1)).2 = .ok q.2) (l.drop k) (objs.drop k) := by
  obtain ⟨w', iw', psha, isha, pk, p, objs, e1, e2, e3, e4, e5⟩ :=
    C27_iterate_partial zl L hr hw hi H fuel level l hs w ho iw hio hc
  refine ⟨w', iw', psha, isha, pk, p, objs, e1, e2, e3, (all2_len e5).symm, fun k hk => ⟨?_, ?_⟩⟩
  · intro innerFuel fuel' hf hf'
    refine C27_resume zl p innerFuel fuel' 0 objs (.ok ()) (e4 innerFuel fuel' hf hf')
      (by rw [← all2_len e5]; exact hf') k hk ?_ fuel' (Nat.le_refl _)
    obtain ⟨q, _, _, _, _, hq, _⟩ := all2_mem_right e5 objs[k] (List.getElem_mem hk)
    intro h0
    unfold PackFile.stream at hq
    rw [if_pos h0] at hq
    have := (packObjectAt_shape hq).1
    omega
  · exact all2_drop_imp (fun _ _ h => ⟨h.1, h.2.1, h.2.2.2.2⟩) k e5
end

example := C27_from_partial toyZlib toyZlib_laws bytesIO_reads.toBoundedReads
  sink_stores sink_stores lenHash 5 1 (twoBlobs 3) (twoBlobs_packable 3 (by omega)).toPackables {} ⟨rfl, rfl⟩ {} ⟨rfl, rfl⟩
  (by
    have h := fun c => toy_fed_noStall 1 c
    simp only [twoBlobs, List.mem_cons, List.not_mem_nil, or_false, forall_eq_or_imp, forall_eq]
    exact ⟨⟨by simp, by decide, fun ps hp => .inr (h _ ps hp)⟩, ⟨by simp, by decide, fun ps hp => .inr (h _ ps hp)⟩⟩)

/-- The pack written from `twoBlobs 3`: objects at 12 and 20, trailer at 24. -/
def twoPack : Bytes :=
  [80, 65, 67, 75, 0, 0, 0, 2, 0, 0, 0, 2, 51, 254, 65, 254, 65, 254, 65, 255, 49, 254, 65, 255] ++ List.replicate 20 24

example : (writePack lenHash toyZlib 5 bytesIORead sink (none : Option (BytesIO → Bytes → BytesIO × Res Nat))
    ((twoBlobs 3).map Prod.fst) none 1 {} {}).1.data = twoPack := by decide +kernel

example : (PackFile.streamIter toyZlib ⟨twoPack, 2, 2⟩ 60 5 0).1.map PackObj.packOffset = [12, 20] := by decide +kernel
example : (PackFile.streamIter toyZlib ⟨twoPack, 2, 2⟩ 60 5 20).1.map PackObj.packOffset = [20] := by decide +kernel

example := C27_resume toyZlib ⟨twoPack, 2, 2⟩ 60 5 0
  (PackFile.streamIter toyZlib ⟨twoPack, 2, 2⟩ 60 5 0).1
  (PackFile.streamIter toyZlib ⟨twoPack, 2, 2⟩ 60 5 0).2 (Prod.eta _).symm (by decide +kernel) 1 (by decide +kernel) (by decide +kernel)
  9 (by omega)
example (o : PackObj) (ho : o ∈ (PackFile.streamIter toyZlib ⟨twoPack, 2, 2⟩ 60 5 0).1) :=
  C27_each toyZlib ⟨twoPack, 2, 2⟩ 60 5 0 _
    (PackFile.streamIter toyZlib ⟨twoPack, 2, 2⟩ 60 5 0).2 (Prod.eta _).symm o ho
example : PackFile.streamIter toyZlib ⟨twoPack, 2, 2⟩ 60 5 24 = ([], .ok ()) :=
  C27_past_end toyZlib ⟨twoPack, 2, 2⟩ 60 4 24 (by omega) (by decide)

/-- The second object is damaged: the iteration raises after the first object, also if taken up there. -/
def damagedPack : Bytes :=
  [80, 65, 67, 75, 0, 0, 0, 2, 0, 0, 0, 2, 51, 254, 65, 254, 65, 254, 65, 255, 49, 251, 65, 255] ++ List.replicate 20 24

example : ((PackFile.streamIter toyZlib ⟨damagedPack, 2, 2⟩ 60 5 0).1.map PackObj.packOffset,
    (PackFile.streamIter toyZlib ⟨damagedPack, 2, 2⟩ 60 5 0).2) = ([12], .error .zlibError) := by decide +kernel
example := C27_resume toyZlib ⟨damagedPack, 2, 2⟩ 60 5 0
  (PackFile.streamIter toyZlib ⟨damagedPack, 2, 2⟩ 60 5 0).1
  (PackFile.streamIter toyZlib ⟨damagedPack, 2, 2⟩ 60 5 0).2 (Prod.eta _).symm (by decide +kernel) 0 (by decide +kernel) (by decide +kernel)
  5 (by omega)

end GitDB.Props
