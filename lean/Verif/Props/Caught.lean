import Verif.Proofs.Stuck
import Verif.Spec.Caught
import Verif.Props.AnyBytes
import Verif.Props.LargeLoose
/-!
# C88: after `zlib.error` no data is returned

The caller catches the exceptions of a reader and goes on.  Nothing is assumed about the compressed bytes.
-/
set_option autoImplicit false

namespace GitDB.Props
open GitDB Spec Deflate

/-- The readers that exist: made with a size, or made from a header, and any calls on them afterwards. -/
inductive ReaderOn (zl : Zlib) (m : Bytes) : Reader → Prop
  | ofSize (size : Int) : ReaderOn zl m (Reader.ofSize m size)
  | new (typ : Bytes) (size : Int) (r : Reader) : Reader.new zl m = .ok (typ, size, r) → ReaderOn zl m r
  | step (r : Reader) (op : ReaderOp) : ReaderOn zl m r → ReaderOn zl m (r.step zl op).1

theorem readerOn_bufLen {zl : Zlib} {m : Bytes} {r : Reader} (h : ReaderOn zl m r) : BufLen r := by
  induction h with
  | ofSize => exact fun _ => rfl
  | new typ size r h =>
    have h1 := parse_bufLen (zl := zl) (Reader.ofSize m 0) (fun _ => rfl)
    unfold Reader.new at h
    split at h
    · simp at h
    · rename_i r1 t z he
      simp only [Except.ok.injEq, Prod.mk.injEq] at h
      obtain ⟨-, -, rfl⟩ := h
      rw [he] at h1
      exact h1
  | step r op _ ih => exact step_bufLen r op ih

/-- **C88** once a call on a reader has raised `zlib.error`, every later `read`, of whatever size and after whatever other calls, raises
`zlib.error`, until somebody calls `seek(0)`. -/
theorem C88_stays (zl : Zlib) (m : Bytes) (r : Reader) (hr : ReaderOn zl m r) (op : ReaderOp) (h : (r.step zl op).2 = .error .zlibError)
    (ops : List ReaderOp) (ho : ∀ o ∈ ops, o ≠ .seek 0 0) (n : Int) :
    (((r.step zl op).1.steps zl ops).step zl (.read n)).2 = .error .zlibError := by
  have hd := dead_steps (zl := zl) ops _ (step_error r op (readerOn_bufLen hr) h) ho
  obtain ⟨r', e, -⟩ := dead_read (zl := zl) _ n hd
  generalize (r.step zl op).1.steps zl ops = r2 at *
  unfold Reader.step
  simp only [e]

theorem readEach_dead (zl : Zlib) : ∀ (ns : List Int) (r : Reader), Dead r →
    readEach (Reader.read zl) r ns = List.replicate ns.length (.error .zlibError)
  | [], _, _ => rfl
  | n :: ns, r, h => by
    obtain ⟨r', e, hd⟩ := dead_read (zl := zl) r n h
    rw [readEach, e]
    simp only
    rw [readEach_dead zl ns r' hd]
    rfl

theorem readEach_any (zl : Zlib) (L : ZlibLaws zl) (m : Bytes) (h : Nat) : ∀ (ns : List Int) (r : Reader), AnyR zl m h r → r.hasS = true →
    BufLen r → ∃ (ds : List Bytes) (k : Nat), readEach (Reader.read zl) r ns = ds.map .ok ++ List.replicate k (.error .zlibError) ∧
      ds.flatten = ((zl.out m).drop (h + r.br.toNat)).take ds.flatten.length ∧ r.br + ds.flatten.length ≤ r.s ∧ (0 < k → zl.bad m = true)
  | [], r, hr, _, _ => ⟨[], 0, rfl, by simp, by simpa using hr.br_le, by omega⟩
  | n :: ns, r, hr, hs, hbl => by
    have hb := read_bufLen (zl := zl) r n hbl
    rcases read_any L m h r n hr hs with ⟨r1, e1, e2⟩ | ⟨r1, d, e1, e2⟩
    · refine ⟨[], ns.length + 1, ?_, by simp, by simpa using hr.br_le, fun _ => e2⟩
      rw [readEach, e1]
      simp only
      rw [readEach_dead zl ns r1 (read_error _ _ _ hbl e1)]
      rfl
    · rw [e1] at hb
      obtain ⟨ds, k, k1, k2, k3, k4⟩ := readEach_any zl L m h ns r1 e2.inv (e2.hasS.trans hs) hb
      have h0 := hr.br0
      have hbr : r1.br.toNat = r.br.toNat + d.length := by rw [e2.br]; omega
      refine ⟨d :: ds, k, ?_, ?_, ?_, k4⟩
      · rw [readEach, e1]
        simp only
        rw [k1]
        rfl
      · rw [List.flatten_cons]
        apply piece_append _ _ _ _ e2.data
        rw [hbr, ← Nat.add_assoc] at k2
        exact k2
      · rw [e2.br, e2.s] at k3
        rw [List.flatten_cons, List.length_append]
        omega

/-- **C88** reads on arbitrary bytes whose exceptions are caught: first come reads that succeed and return, in order and without gaps, what
the bytes decompress to; from the first exception on there is nothing but `zlib.error`. -/
theorem C88_reads (zl : Zlib) (L : ZlibLaws zl) (m : Bytes) (size : Nat) (ns : List Int) :
    ∃ (ds : List Bytes) (k : Nat), readEach (Reader.read zl) (Reader.ofSize m size) ns = ds.map .ok ++ List.replicate k (.error .zlibError) ∧
      ds.flatten <+: zl.out m ∧ ds.flatten.length ≤ size ∧ (0 < k → zl.bad m = true) := by
  obtain ⟨ds, k, h1, h2, h3, h4⟩ := readEach_any zl L m 0 ns (Reader.ofSize m size) (anyR_ofSize m size (by omega)) rfl (fun _ => rfl)
  refine ⟨ds, k, h1, ?_, ?_, h4⟩
  · rw [h2]
    simp only [Reader.ofSize, Int.toNat_zero, Nat.add_zero, List.drop_zero]
    exact List.take_prefix _ _
  · simp only [Reader.ofSize] at h3
    omega

/-- **C88** the same for the reader of a loose object (of a size that is not negative). -/
theorem C88_object (zl : Zlib) (L : ZlibLaws zl) (m typ : Bytes) (size : Int) (r : Reader) (h : Reader.new zl m = .ok (typ, size, r))
    (h0 : 0 ≤ size) (ns : List Int) :
    ∃ (ds : List Bytes) (k : Nat) (hdr : Bytes), readEach (Reader.read zl) r ns = ds.map .ok ++ List.replicate k (.error .zlibError) ∧
      hdr ++ ds.flatten <+: zl.out m ∧ (ds.flatten.length : Int) ≤ size ∧ (0 < k → zl.bad m = true) := by
  have hbl := readerOn_bufLen (.new typ size r h)
  rcases new_any L m with h' | ⟨hdr, h1, h2, h3 | ⟨typ', size', k, r', e1, e2, e3, e4, e5, e6, e7, e8, e9⟩⟩
  · rw [h] at h'; simp at h'
  · rw [h] at h3; simp at h3
  · rw [h] at e1
    simp only [Except.ok.injEq, Prod.mk.injEq] at e1
    obtain ⟨rfl, rfl, rfl⟩ := e1
    obtain ⟨ds, j, k1, k2, k3, k4⟩ := readEach_any zl L m k ns r (e9 h0) e5 hbl
    rw [e6] at k2 k3
    simp only [Int.toNat_zero, Nat.add_zero] at k2
    refine ⟨ds, j, (zl.out m).take k, k1, ?_, by omega, k4⟩
    rw [k2, ← List.take_add]
    exact List.take_prefix _ _

/-- **C88** `seek(0)` makes a reader with a size as good as new, whatever was done with it, also after exceptions. -/
theorem C88_seek (zl : Zlib) (m : Bytes) (size : Int) (ops : List ReaderOp) :
    ((Reader.ofSize m size).steps zl ops).seek 0 0 = (Reader.ofSize m size, .ok ()) :=
  sized_seek m size _ (steps_sized m size ops _ ⟨rfl, rfl, rfl, rfl, rfl, rfl⟩)

/-- **C88** a loose object whose reader raised `zlib.error` is read again after `seek(0)`, with the same results as the first time. -/
theorem C88_again (zl : Zlib) (m typ : Bytes) (size : Int) (r : Reader) (h : Reader.new zl m = .ok (typ, size, r))
    (before after : List ReaderOp) (hb : ∀ o ∈ before, o ≠ .seek 0 0) (ha : ∀ o ∈ after, o ≠ .seek 0 0) (op : ReaderOp)
    (he : ((r.steps zl before).step zl op).2 = .error .zlibError) (n : Int) :
    ((((r.steps zl before).step zl op).1.steps zl after).seek 0 0).1.step zl (.read n) = r.step zl (.read n) := by
  have hbl := readerOn_bufLen (.new typ size r h)
  have hr : r.hasS = true ∧ r.m = m ∧ r.phi = true := by
    have h1 := readCore_same (zl := zl) (Reader.ofSize m maxHeader).fuel (Reader.ofSize m maxHeader) maxHeader
    unfold Reader.new at h
    split at h
    · simp at h
    rename_i r1 t z hp
    simp only [Except.ok.injEq, Prod.mk.injEq] at h
    obtain ⟨-, -, rfl⟩ := h
    unfold Reader.parseHeaderInfo at hp
    simp only at hp
    rw [show ({ Reader.ofSize m 0 with s := maxHeader, hasS := true } : Reader) = Reader.ofSize m maxHeader from rfl] at hp
    split at hp
    · simp at hp
    · rename_i r2 hdr he2
      rw [he2] at h1
      split at hp
      · simp at hp
      · simp only [Prod.mk.injEq] at hp
        obtain ⟨rfl, -⟩ := hp
        exact ⟨h1.hasS, h1.m, rfl⟩
  obtain ⟨hs, hm, hp⟩ := hr
  have hop : op ≠ .seek 0 0 := by
    intro h0
    subst h0
    simp [Reader.step, Reader.seek] at he
  have s1 := steps_same (zl := zl) before r hs hb
  have s2 := s1.trans (step_same (zl := zl) _ op (s1.hasS.trans hs) hop)
  have s3 := s2.trans (steps_same (zl := zl) after _ (s2.hasS.trans hs) ha)
  have hd := dead_steps (zl := zl) after _ (step_error _ op (steps_bufLen before r hbl) he) ha
  have key := dead_again (zl := zl) m typ size r _ h hd (s3.m.trans hm) (s3.phi.trans hp)
  generalize ((((r.steps zl before).step zl op).1.steps zl after).seek 0 0).1 = r2 at *
  have h1 : r2.read zl n = r.read zl n := by
    unfold Reader.read
    rw [key]
    unfold Reader.needS
    rw [if_pos hs]
  unfold Reader.step
  simp only [h1]

/-! ## Examples -/

/-- Two stored blocks of eight bytes each; the length of the second is damaged. -/
def badSecond : Bytes := [0x78, 0x01, 0x00, 0x08, 0x00, 0xf7, 0xff, 97, 98, 99, 100, 101, 102, 103, 104,
  0x01, 0x08, 0x00, 0xf7, 0xfe, 105, 106, 107, 108, 109, 110, 111, 112, 0, 0, 0, 0]

/-- The second read notices the damage, and the data read so far in that call is lost: no later read returns it. -/
example : readEach (Reader.read storedZlib) (Reader.ofSize badSecond 16) [3, 1, -1, 1, 0, 100] =
    [.ok [97, 98, 99], .ok [100], .error .zlibError, .error .zlibError, .error .zlibError, .error .zlibError] := by decide +kernel
/-- The hypotheses of `C88_stays`. -/
example : ReaderOn storedZlib badSecond (Reader.ofSize badSecond 16) ∧
    ((Reader.ofSize badSecond 16).step storedZlib (.read 100)).2 = .error .zlibError := ⟨.ofSize 16, by decide +kernel⟩
/-- After `seek(0)` the first bytes are there again. -/
example : ((((Reader.ofSize badSecond 16).steps storedZlib [.read 100, .read 3, .count 5, .seek 0 0]).step storedZlib (.read 3)).2) =
    .ok (.data [97, 98, 99]) := by decide +kernel

/-- The rest of an opened object, of which zlib has given the first `produced` bytes, is damaged. -/
theorem read_rest_bad {zl : Zlib} (r : Reader) (b : Bytes) (hs : r.hasS = true) (hb : r.buf = some b) (hbl : r.buflen < r.s - r.br)
    (h0 : 0 ≤ r.buflen) (he : r.zip.eof = false) (hbad : ∀ x, zl.bad x = true) (hout : ∀ x, (zl.out x).length ≤ r.zip.produced + 1) :
    (r.read zl (-1)).2 = .error .zlibError := by
  have hdec : ∀ w (n : Int), 0 < n → (r.zip.decompress zl w n).2 = .error .zlibError := by
    intro w n hn
    unfold ZDec.decompress
    rw [if_neg (by omega), he, if_neg (by simp)]
    split
    · rfl
    · have := hout (r.zip.fed ++ w)
      simp only
      rw [if_neg (by omega), if_pos (hbad _)]
  have hzip : ∀ (r' : Reader) (n : Int), r'.zip = r.zip → 0 < n → (r'.readZip zl n).2 = .error .zlibError := by
    intro r' n hz hn
    unfold Reader.readZip
    simp only [hz]
    generalize pySlice r'.m _ _ = w
    have := hdec w n hn
    generalize r.zip.decompress zl w n = q at this
    obtain ⟨z, _ | d⟩ := q
    · simpa using this
    · simp at this
  unfold Reader.read Reader.needS
  rw [if_pos hs]
  simp only
  unfold Reader.fuel
  rw [show (r.s - r.br).toNat + 3 = ((r.s - r.br).toNat + 2) + 1 by omega, readCore_succ]
  have hw : r.want (-1) = r.s - r.br := by unfold Reader.want; rw [if_pos (by omega)]
  rw [hw, if_neg (by omega)]
  simp only [hb]
  rw [if_neg (by omega)]
  unfold Reader.cont
  have := hzip { r with br := r.br + r.buflen, buflen := 0, buf := none } (r.s - r.br - r.buflen) rfl (by omega)
  generalize Reader.readZip zl _ (r.s - r.br - r.buflen) = q at this
  obtain ⟨z, _ | d⟩ := q
  · simpa using this
  · simp at this

theorem step_read_error {zl : Zlib} (r : Reader) (n : Int) (e : Err) (h : (r.read zl n).2 = .error e) :
    (r.step zl (.read n)).2 = .error e := by
  obtain ⟨z, q⟩ : ∃ z, r.read zl n = (z, .error e) := ⟨(r.read zl n).1, Prod.ext rfl h⟩
  unfold Reader.step
  simp only [q]

/-- A zlib for which everything is damaged behind the first 8193 bytes of an object `blob 9999`. -/
def lateZlib : Zlib where
  out _ := [98, 108, 111, 98, 32, 57, 57, 57, 57, 0] ++ List.replicate 8183 97
  stop _ := none
  bad _ := true
  taken _ _ _ := 0
  Comp := Unit
  cinit _ := ()
  ccompress _ _ := ((), [])
  cflush _ := []

/-- The hypotheses of `C88_object`: an object cut in the middle of its data. -/
example : ((Reader.new storedZlib (cutZip.take 20)).map fun x => (x.1, x.2.1, readEach (Reader.read storedZlib) x.2.2 [3, 1, -1, 5])) =
    .ok (blob, 12, [.ok [104, 101, 108], .ok [108], .ok [111], .ok []]) := by decide +kernel

/-- The hypotheses of `C88_again`: the object is opened, the damage is behind the first 8192 bytes. -/
example : ∃ r, Reader.new lateZlib [1] = .ok (blob, 9999, r) ∧ ((r.steps lateZlib []).step lateZlib (.read (-1))).2 = .error .zlibError := by
  have hlen : ∀ x, (lateZlib.out x).length = 8193 := by
    intro x
    show ([98, 108, 111, 98, 32, 57, 57, 57, 57, 0] ++ List.replicate 8183 97 : Bytes).length = 8193
    rw [List.length_append, List.length_replicate]
    simp
  obtain ⟨z, e, z1, z2, z3, z4⟩ := first_window lateZlib [1] maxHeader (by decide) (by rw [hlen]; decide)
  have hhdr : ((lateZlib.out (List.take maxHeader [1])).take maxHeader) = blob ++ [0x20] ++ [57, 57, 57, 57] ++ [0] ++ List.replicate 8182 97 := by
    show (([98, 108, 111, 98, 32, 57, 57, 57, 57, 0] ++ List.replicate 8183 97 : Bytes).take 8192) = _
    rw [List.take_append, List.take_of_length_le (by simp), List.take_replicate]
    rfl
  have hp := parseObjectHeader_spec blob [57, 57, 57, 57] (List.replicate 8182 97) 9999 ⟨by decide, by decide, by decide, by decide⟩ (by decide)
  have hnew : (Reader.ofSize [1] 0).parseHeaderInfo lateZlib =
      ({ z with s := 9999, br := 0, buf := some (List.replicate 8182 97), buflen := 8182, phi := true }, .ok (blob, 9999)) := by
    unfold Reader.parseHeaderInfo
    simp only
    rw [show ({ Reader.ofSize [1] 0 with s := maxHeader, hasS := true } : Reader) = Reader.ofSize [1] maxHeader from rfl, e]
    simp only [hhdr, hp]
    rw [List.drop_left, List.length_append, List.length_replicate]
    rfl
  have hz : z.hasS = true := by
    have := (readCore_same (zl := lateZlib) (Reader.ofSize [1] maxHeader).fuel (Reader.ofSize [1] maxHeader) maxHeader)
    rw [e] at this
    exact this.hasS
  refine ⟨_, by unfold Reader.new; rw [hnew], ?_⟩
  have := read_rest_bad (zl := lateZlib) { z with s := 9999, br := 0, buf := some (List.replicate 8182 97), buflen := 8182, phi := true }
    (List.replicate 8182 97) hz rfl (by show (8182 : Int) < 9999 - 0; omega) (by show (0 : Int) ≤ 8182; omega) z3 (fun _ => rfl)
    (fun x => by rw [hlen]; show 8193 ≤ z.zip.produced + 1; rw [z4]; decide)
  exact step_read_error _ _ _ this

end GitDB.Props
