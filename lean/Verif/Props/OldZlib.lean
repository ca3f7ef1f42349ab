import Verif.Model.OldZlib
import Verif.Props.Count
import Verif.Props.PackResume
/-!
# C113: readers with zlib 1.2.5 or 1.2.7
-/
set_option autoImplicit false

namespace GitDB
open Spec

variable {zl : Zlib}

/-- The same reader with `x` more compressed bytes counted. -/
def Reader.plus (r : Reader) (x : Int) : Reader := { r with cbr := r.cbr + x }

theorem plus_zero (r : Reader) : r.plus 0 = r := by unfold Reader.plus; rw [Int.add_zero]

/-- What one call of zlib does to the count. -/
theorem readZipOld_eq (r : Reader) (x size : Int) : (r.plus x).readZipOld zl size =
    match r.readZip zl size with
    | (q, .error e) => (q.plus x, .error e)
    | (q, .ok d) => (q.plus (x + q.zip.unused.length), .ok d) := by
  unfold Reader.readZipOld Reader.readZip Reader.plus
  simp only
  generalize pySlice r.m _ _ = w
  rcases r.zip.decompress zl w size with ⟨z, e | d⟩
  · rfl
  · simp only [Prod.mk.injEq, and_true, Reader.mk.injEq, true_and]
    omega

theorem readZip_unused (r : Reader) (size : Int) (h : r.zip.eof = false → r.zip.unused = []) :
    ((r.readZip zl size).1.zip.eof = false → (r.readZip zl size).1.zip.unused = []) ∧
    ((r.readZip zl size).1.zip.unused = [] → r.zip.unused = []) := by
  unfold Reader.readZip
  simp only
  generalize pySlice r.m _ _ = w
  have key : ((r.zip.decompress zl w size).1.eof = false → (r.zip.decompress zl w size).1.unused = []) ∧
      ((r.zip.decompress zl w size).1.unused = [] → r.zip.unused = []) := by
    unfold ZDec.decompress
    split
    · exact ⟨h, id⟩
    split
    · rename_i h'
      exact ⟨fun h2 => absurd (h'.symm.trans h2) (by decide), fun h2 => (List.append_eq_nil_iff.1 h2).1⟩
    rename_i h'
    have h' : r.zip.eof = false := by simpa using h'
    split
    · exact ⟨h, id⟩
    simp only
    split
    · exact ⟨h, id⟩
    split
    · exact ⟨h, id⟩
    split
    · exact ⟨nofun, fun _ => h h'⟩
    · exact ⟨h, id⟩
  rcases hd : r.zip.decompress zl w size with ⟨z, e | d⟩ <;> (rw [hd] at key; exact key)

/-- How two readers are related that were used in the same way. -/
structure Counts (r r' : Reader) : Prop where
  same : ∃ x, 0 ≤ x ∧ r' = r.plus x ∧ (r.zip.unused = [] → x = 0)
  running : r.zip.eof = false → r.zip.unused = []

/-- Two outcomes. -/
def CountsRes {α : Type} (a b : Reader × Res α) : Prop := Counts a.1 b.1 ∧ b.2 = a.2

theorem counts_refl {r : Reader} (h : r.zip.eof = false → r.zip.unused = []) : Counts r r := ⟨⟨0, Int.le_refl _, (plus_zero r).symm, fun _ => rfl⟩, h⟩

theorem counts_zip {r r' : Reader} (h : Counts r r') (size : Int) : CountsRes (r.readZip zl size) (r'.readZipOld zl size) := by
  obtain ⟨⟨x, h0, rfl, hx⟩, h1⟩ := h
  obtain ⟨h2, h3⟩ := readZip_unused (zl := zl) r size h1
  rw [readZipOld_eq]
  rcases hz : r.readZip zl size with ⟨q, e | d⟩
  · rw [hz] at h2 h3
    exact ⟨⟨⟨x, h0, rfl, fun h => hx (h3 h)⟩, h2⟩, rfl⟩
  · rw [hz] at h2 h3
    refine ⟨⟨⟨x + q.zip.unused.length, by omega, rfl, fun h => ?_⟩, h2⟩, rfl⟩
    dsimp only at h h3
    rw [hx (h3 h), h]
    rfl

/-- What `read` does after the buffer is used up, see `Reader.cont`. -/
def Reader.contOld (zl : Zlib) (fuel : Nat) (r : Reader) (dat : Bytes) (size : Int) : Reader × Res Bytes :=
  match r.readZipOld zl size with
  | (r, .error e) => (r, .error e)
  | (r, .ok new) =>
    if dat ++ new ≠ [] ∧ ((dat ++ new).length : Int) - dat.length < size ∧ r.br < r.s then
      match readCoreOld zl fuel r (size - (dat ++ new).length) with
      | (r, .error e) => (r, .error e)
      | (r, .ok more) => (r, .ok (dat ++ new ++ more))
    else (r, .ok (dat ++ new))

theorem readCoreOld_succ (fuel : Nat) (r : Reader) (n : Int) :
    r.readCoreOld zl (fuel + 1) n =
      if r.want n = 0 then (r, .ok [])
      else
        match r.buf with
        | some b =>
          if r.buflen ≥ r.want n then
            ({ r with buf := some (if r.want n < 0 then [] else b.drop (r.want n).toNat),
                      buflen := r.buflen - r.want n, br := r.br + r.want n },
              .ok (if r.want n < 0 then b else b.take (r.want n).toNat))
          else
            Reader.contOld zl fuel { r with br := r.br + r.buflen, buflen := 0, buf := none } b
              (r.want n - r.buflen)
        | none => Reader.contOld zl fuel r [] (r.want n) := by
  rw [Reader.readCoreOld]
  rfl

theorem counts_core : ∀ (fuel : Nat) (r r' : Reader) (n : Int), Counts r r' → CountsRes (r.readCore zl fuel n) (r'.readCoreOld zl fuel n) := by
  intro fuel
  induction fuel with
  | zero => exact fun r r' n h => ⟨h, rfl⟩
  | succ fuel ih =>
    have cont : ∀ (r r' : Reader) (dat : Bytes) (size : Int), Counts r r' → CountsRes (r.cont zl fuel dat size) (r'.contOld zl fuel dat size) := by
      intro r r' dat size h
      obtain ⟨hz, he⟩ := counts_zip (zl := zl) h size
      unfold Reader.cont Reader.contOld
      rcases h1 : r.readZip zl size with ⟨q, e | d⟩ <;> rcases h2 : r'.readZipOld zl size with ⟨q', e' | d'⟩ <;> rw [h1, h2] at hz he <;>
        dsimp only at hz he <;> cases he
      · exact ⟨hz, rfl⟩
      · dsimp only
        have hb : q'.br = q.br ∧ q'.s = q.s := by obtain ⟨⟨x, -, rfl, -⟩, -⟩ := hz; exact ⟨rfl, rfl⟩
        rw [hb.1, hb.2]
        split
        · obtain ⟨hi, he⟩ := ih q q' (size - (dat ++ d).length) hz
          rcases h3 : q.readCore zl fuel (size - (dat ++ d).length) with ⟨p, e | f⟩ <;>
            rcases h4 : q'.readCoreOld zl fuel (size - (dat ++ d).length) with ⟨p', e' | f'⟩ <;> rw [h3, h4] at hi he <;> dsimp only at hi he <;> cases he
          · exact ⟨hi, rfl⟩
          · exact ⟨hi, rfl⟩
        · exact ⟨hz, rfl⟩
    intro r r' n h
    obtain ⟨⟨x, h0, rfl, hx⟩, h1⟩ := h
    rw [readCore_succ, readCoreOld_succ]
    have hw : (r.plus x).want n = r.want n := rfl
    rw [hw]
    split
    · exact ⟨⟨⟨x, h0, rfl, hx⟩, h1⟩, rfl⟩
    · rw [show (r.plus x).buf = r.buf from rfl, show (r.plus x).buflen = r.buflen from rfl]
      rcases hb : r.buf with _ | b
      · exact cont _ _ _ _ ⟨⟨x, h0, rfl, hx⟩, h1⟩
      · dsimp only
        split
        · exact ⟨⟨⟨x, h0, rfl, hx⟩, h1⟩, rfl⟩
        · exact cont _ _ _ _ ⟨⟨x, h0, rfl, hx⟩, h1⟩

theorem counts_header (r r' : Reader) (h : Counts r r') : CountsRes (r.parseHeaderInfo zl) (r'.parseHeaderInfoOld zl) := by
  obtain ⟨⟨x, h0, rfl, hx⟩, h1⟩ := h
  unfold Reader.parseHeaderInfo Reader.parseHeaderInfoOld
  dsimp only
  have hc := counts_core (zl := zl) ({ r with s := maxHeader, hasS := true } : Reader).fuel { r with s := maxHeader, hasS := true }
    { r.plus x with s := maxHeader, hasS := true } maxHeader ⟨⟨x, h0, rfl, hx⟩, h1⟩
  rw [show ({ r.plus x with s := maxHeader, hasS := true } : Reader).fuel = ({ r with s := maxHeader, hasS := true } : Reader).fuel from rfl]
  obtain ⟨hi, he⟩ := hc
  generalize ({ r with s := maxHeader, hasS := true } : Reader).readCore zl _ _ = a at hi he
  generalize ({ r.plus x with s := maxHeader, hasS := true } : Reader).readCoreOld zl _ _ = b at hi he
  rcases a with ⟨q, e | d⟩ <;> rcases b with ⟨q', e' | d'⟩ <;> dsimp only at hi he <;> cases he
  · exact ⟨hi, rfl⟩
  · dsimp only
    rcases parseObjectHeader d with e | ⟨t, s, k⟩
    · exact ⟨hi, rfl⟩
    · obtain ⟨⟨y, h2, rfl, hy⟩, h3⟩ := hi
      exact ⟨⟨⟨y, h2, rfl, hy⟩, h3⟩, rfl⟩

theorem counts_needS (r r' : Reader) (h : Counts r r') : CountsRes (r.needS zl) (r'.needSOld zl) := by
  unfold Reader.needS Reader.needSOld
  have hh : r'.hasS = r.hasS := by obtain ⟨⟨x, -, rfl, -⟩, -⟩ := h; rfl
  rw [hh]
  split
  · exact ⟨h, rfl⟩
  · obtain ⟨hi, he⟩ := counts_header (zl := zl) r r' h
    rcases h1 : r.parseHeaderInfo zl with ⟨q, e | d⟩ <;> rcases h2 : r'.parseHeaderInfoOld zl with ⟨q', e' | d'⟩ <;> rw [h1, h2] at hi he <;>
      dsimp only at hi he <;> cases he
    · exact ⟨hi, rfl⟩
    · exact ⟨hi, rfl⟩

theorem counts_fuel {r r' : Reader} (h : Counts r r') : r'.fuel = r.fuel := by obtain ⟨⟨x, -, rfl, -⟩, -⟩ := h; rfl

theorem counts_read (r r' : Reader) (n : Int) (h : Counts r r') : CountsRes (r.read zl n) (r'.readOld zl n) := by
  unfold Reader.read Reader.readOld
  obtain ⟨hi, he⟩ := counts_needS (zl := zl) r r' h
  rcases h1 : r.needS zl with ⟨q, e | d⟩ <;> rcases h2 : r'.needSOld zl with ⟨q', e' | d'⟩ <;> rw [h1, h2] at hi he <;> dsimp only at hi he <;> cases he
  · exact ⟨hi, rfl⟩
  · dsimp only
    rw [counts_fuel hi]
    exact counts_core _ _ _ _ hi

theorem counts_seek (r r' : Reader) (o w : Int) (h : Counts r r') : CountsRes (r.seek o w) (r'.seek o w) := by
  obtain ⟨⟨x, h0, rfl, hx⟩, h1⟩ := h
  unfold Reader.seek
  split
  · exact ⟨⟨⟨x, h0, rfl, hx⟩, h1⟩, rfl⟩
  · refine ⟨⟨⟨0, Int.le_refl _, ?_, fun _ => rfl⟩, ?_⟩, rfl⟩
    · dsimp only [Reader.plus]
      cases r.phi <;> rfl
    · dsimp only
      cases r.phi <;> exact fun _ => rfl

theorem counts_scrub : ∀ (fuel : Nat) (r r' : Reader), Counts r r' → CountsRes (r.scrub zl fuel) (r'.scrubOld zl fuel)
  | 0, r, r', h => ⟨h, rfl⟩
  | fuel + 1, r, r', h => by
    unfold Reader.scrub Reader.scrubOld
    have hc : (r'.zip.unused = [] ∧ r'.cbr ≠ r'.m.length) ↔ (r.zip.unused = [] ∧ r.cbr ≠ r.m.length) := by
      obtain ⟨⟨x, -, rfl, hx⟩, -⟩ := h
      constructor
      · rintro ⟨a, b⟩
        have := hx a
        subst this
        rw [plus_zero] at b
        exact ⟨a, b⟩
      · rintro ⟨a, b⟩
        have := hx a
        subst this
        rw [plus_zero]
        exact ⟨a, b⟩
    by_cases hs : r.zip.unused = [] ∧ r.cbr ≠ r.m.length
    · rw [if_pos hs, if_pos (hc.2 hs), counts_fuel h]
      obtain ⟨hi, he⟩ := counts_core (zl := zl) r.fuel r r' PAGESIZE h
      rcases h1 : r.readCore zl r.fuel PAGESIZE with ⟨q, e | d⟩ <;> rcases h2 : r'.readCoreOld zl r.fuel PAGESIZE with ⟨q', e' | d'⟩ <;> rw [h1, h2] at hi he <;>
        dsimp only at hi he <;> cases he
      · exact ⟨hi, rfl⟩
      · exact counts_scrub fuel q q' hi
    · rw [if_neg hs, if_neg fun h => hs (hc.1 h)]
      exact ⟨h, rfl⟩

/-- Two results of `compressed_bytes_read`: the same exception, or numbers that differ by `x`. -/
def NumberPlus (x : Int) (a b : Res Int) : Prop :=
  match a, b with
  | .ok n, .ok n' => n' = n + x
  | .error e, .error e' => e' = e
  | _, _ => False

theorem counts_count (fuel : Nat) (r r' : Reader) (h : Counts r r') :
    Counts (r.compressedBytesRead zl fuel).1 (r'.compressedBytesReadOld zl fuel).1 ∧
    ∃ x, 0 ≤ x ∧ ((r.compressedBytesRead zl fuel).1.zip.unused = [] → x = 0) ∧
      NumberPlus x (r.compressedBytesRead zl fuel).2 (r'.compressedBytesReadOld zl fuel).2 := by
  unfold Reader.compressedBytesRead Reader.compressedBytesReadOld
  obtain ⟨hi, he⟩ := counts_needS (zl := zl) r r' h
  rcases h1 : r.needS zl with ⟨q, e | d⟩ <;> rcases h2 : r'.needSOld zl with ⟨q', e' | d'⟩ <;> rw [h1, h2] at hi he <;> dsimp only at hi he <;> cases he
  · exact ⟨hi, 0, Int.le_refl _, fun _ => rfl, rfl⟩
  · dsimp only
    obtain ⟨⟨x, h0, rfl, hx⟩, h3⟩ := hi
    by_cases hc : q.br = q.s ∧ q.zip.unused = []
    · rw [if_pos hc, if_pos (show (q.plus x).br = (q.plus x).s ∧ (q.plus x).zip.unused = [] from hc)]
      obtain ⟨hi, he⟩ := counts_scrub (zl := zl) fuel { q with br := 0 } { q.plus x with br := 0 } ⟨⟨x, h0, rfl, hx⟩, h3⟩
      rcases h4 : ({ q with br := 0 } : Reader).scrub zl fuel with ⟨p, e | d⟩ <;>
        rcases h5 : ({ q.plus x with br := 0 } : Reader).scrubOld zl fuel with ⟨p', e' | d'⟩ <;> rw [h4, h5] at hi he <;> dsimp only at hi he <;> cases he
      · exact ⟨hi, 0, Int.le_refl _, fun _ => rfl, rfl⟩
      · obtain ⟨⟨y, h6, rfl, hy⟩, h7⟩ := hi
        exact ⟨⟨⟨y, h6, rfl, hy⟩, h7⟩, y, h6, hy, rfl⟩
    rw [if_neg hc, if_neg (show ¬((q.plus x).br = (q.plus x).s ∧ (q.plus x).zip.unused = []) from hc)]
    exact ⟨⟨⟨x, h0, rfl, hx⟩, h3⟩, x, h0, hx, rfl⟩

/-! ### the exact difference -/

theorem unused_zip {r q : Reader} {size : Int} {d : Bytes} (hu : r.zip.unused = []) (e : r.readZip zl size = (q, .ok d)) :
    (r.plus r.zip.unused.length).readZipOld zl size = (q.plus q.zip.unused.length, .ok d) := by
  rw [readZipOld_eq, e, hu]
  dsimp only
  rw [List.length_nil, Int.natCast_zero, Int.zero_add]

/-- Reads with the size of the content call zlib only before the end of the stream. -/
theorem unused_core (L : ZlibLaws zl) {m : Bytes} {clen : Nat} {content : Bytes} (hm : IsZip zl m clen content) (h : Nat) :
    ∀ (fuel : Nat) (r : Reader) (n : Int) (q : Reader) (d : Bytes), RInv zl m clen content h r → h + r.s = content.length →
      r.readCore zl fuel n = (q, .ok d) → (r.plus r.zip.unused.length).readCoreOld zl fuel n = (q.plus q.zip.unused.length, .ok d) := by
  intro fuel
  induction fuel with
  | zero => intro r n q d _ _ e; simp [Reader.readCore] at e
  | succ fuel ih =>
    intro r n q d hr hs e
    have hb0 := hr.br_nonneg
    have hbs := hr.br_le
    have hwle : r.want n ≤ r.s - r.br := by unfold Reader.want; split <;> omega
    have hw0 : 0 ≤ r.want n := by unfold Reader.want; split <;> omega
    have key : ∀ (r1 : Reader) (dat : Bytes) (size : Int), RInv zl m clen content h r1 → r1.buf = none → h + r1.s = content.length → 1 ≤ size →
        size ≤ r1.s - r1.br → Reader.cont zl fuel r1 dat size = (q, .ok d) →
        Reader.contOld zl fuel (r1.plus r1.zip.unused.length) dat size = (q.plus q.zip.unused.length, .ok d) := by
      intro r1 dat size hr1 hb1 hs1 h1 h2 e
      obtain ⟨r2, new, e2, st⟩ := readZip_spec L hm h r1 hr1 hb1 size h1 h2
      have heof : r1.zip.eof = false := by
        rcases h4 : r1.zip.eof with _ | _
        · rfl
        have h5 := (hr1.zinv.ended h4).1
        have h6 := hr1.pos
        have h7 := hr1.buf_len
        rw [hb1] at h7
        simp at h7
        omega
      obtain ⟨k, -, -, -, -, hu⟩ := hr1.zinv.running heof
      have e3 := unused_zip hu e2
      unfold Reader.cont at e
      unfold Reader.contOld
      rw [e2] at e
      rw [e3]
      dsimp only at e ⊢
      rw [show (r2.plus r2.zip.unused.length).br = r2.br from rfl, show (r2.plus r2.zip.unused.length).s = r2.s from rfl]
      split at e
      · rename_i hc
        rw [if_pos hc]
        split at e
        · simp at e
        · rename_i e4
          simp only [Prod.mk.injEq, Except.ok.injEq] at e
          obtain ⟨rfl, rfl⟩ := e
          rw [ih r2 _ _ _ st.inv (by rw [st.s, hs1]) e4]
      · rename_i hc
        rw [if_neg hc]
        simp only [Prod.mk.injEq, Except.ok.injEq] at e
        obtain ⟨rfl, rfl⟩ := e
        rfl
    rw [readCore_succ] at e
    rw [readCoreOld_succ]
    have hw : (r.plus r.zip.unused.length).want n = r.want n := rfl
    rw [hw]
    split at e
    · rename_i hc
      rw [if_pos hc]
      cases e
      rfl
    · rename_i hne
      rw [if_neg hne]
      rw [show (r.plus r.zip.unused.length).buf = r.buf from rfl, show (r.plus r.zip.unused.length).buflen = r.buflen from rfl]
      rcases hb : r.buf with _ | b
      · simp only [hb] at e
        exact key r [] _ hr hb hs (by omega) hwle e
      · simp only [hb] at e
        dsimp only
        split at e
        · rename_i hge
          rw [if_pos hge]
          simp only [Prod.mk.injEq, Except.ok.injEq] at e
          obtain ⟨rfl, rfl⟩ := e
          rfl
        · rename_i hge
          rw [if_neg hge]
          have hbl := hr.buf_len
          rw [hb] at hbl
          simp at hbl
          refine key { r with br := r.br + r.buflen, buflen := 0, buf := none } b (r.want n - r.buflen) ?_ rfl hs (by omega)
            (by simp only; omega) e
          constructor
          · exact hr.m_eq
          · exact hr.zinv
          · simp only; omega
          · simp only; omega
          · simp only; have := hr.pos; omega
          · simp
          · simp
          · exact hr.cbr_eq

theorem unused_many (L : ZlibLaws zl) {m : Bytes} {clen : Nat} {content : Bytes} (hm : IsZip zl m clen content) (h : Nat) :
    ∀ (ns : List Int) (r q : Reader) (ps : List Bytes), RInv zl m clen content h r → h + r.s = content.length → r.hasS = true →
      readMany (Reader.read zl) r ns = (q, .ok ps) →
      readMany (Reader.readOld zl) (r.plus r.zip.unused.length) ns = (q.plus q.zip.unused.length, .ok ps)
  | [], r, q, ps, _, _, _, e => by cases e; rfl
  | n :: ns, r, q, ps, hr, hs, hS, e => by
    obtain ⟨r1, d, e1, st⟩ := read_spec L hm h r n hr hS
    obtain ⟨r2, ps2, e2, -⟩ := readMany_reader L hm h ns r1 st.inv (by rw [st.hasS]; exact hS)
    simp only [readMany, e1, e2] at e
    cases e
    have e3 := unused_many L hm h ns r1 _ _ st.inv (by rw [st.s, hs]) (by rw [st.hasS]; exact hS) e2
    unfold Reader.read Reader.needS at e1
    rw [if_pos hS] at e1
    have e4 := unused_core L hm h _ _ _ _ _ hr hs e1
    have e5 : (r.plus r.zip.unused.length).readOld zl n = (r1.plus r1.zip.unused.length, .ok d) := by
      unfold Reader.readOld Reader.needSOld
      rw [if_pos (show (r.plus r.zip.unused.length).hasS = true from hS)]
      exact e4
    simp only [readMany, e5, e3]

/-- A read without result called zlib at most once. -/
theorem unused_empty (fuel : Nat) (r q : Reader) (n : Int) (hu : r.zip.unused = []) (e : r.readCore zl fuel n = (q, .ok [])) :
    (r.plus r.zip.unused.length).readCoreOld zl fuel n = (q.plus q.zip.unused.length, .ok []) := by
  rcases fuel with _ | fuel
  · simp [Reader.readCore] at e
  have key : ∀ (r1 : Reader) (dat : Bytes) (size : Int), r1.zip.unused = [] → Reader.cont zl fuel r1 dat size = (q, .ok []) →
      Reader.contOld zl fuel (r1.plus r1.zip.unused.length) dat size = (q.plus q.zip.unused.length, .ok []) := by
    intro r1 dat size hu e
    unfold Reader.cont at e
    unfold Reader.contOld
    rcases e2 : r1.readZip zl size with ⟨r2, x | new⟩
    · rw [e2] at e
      simp at e
    rw [unused_zip hu e2]
    rw [e2] at e
    dsimp only at e ⊢
    rw [show (r2.plus r2.zip.unused.length).br = r2.br from rfl, show (r2.plus r2.zip.unused.length).s = r2.s from rfl]
    split at e
    · rename_i hc
      split at e
      · simp at e
      · simp only [Prod.mk.injEq, Except.ok.injEq] at e
        exact absurd (List.append_eq_nil_iff.1 e.2).1 hc.1
    · rename_i hc
      rw [if_neg hc]
      simp only [Prod.mk.injEq, Except.ok.injEq] at e
      obtain ⟨rfl, e7⟩ := e
      rw [e7]
  rw [readCore_succ] at e
  rw [readCoreOld_succ]
  have hw : (r.plus r.zip.unused.length).want n = r.want n := rfl
  rw [hw]
  split at e
  · rename_i hc
    rw [if_pos hc]
    cases e
    rfl
  · rename_i hne
    rw [if_neg hne]
    rw [show (r.plus r.zip.unused.length).buf = r.buf from rfl, show (r.plus r.zip.unused.length).buflen = r.buflen from rfl]
    rcases hb : r.buf with _ | b
    · simp only [hb] at e
      exact key r [] _ hu e
    · simp only [hb] at e
      dsimp only
      split at e
      · rename_i hge
        rw [if_pos hge]
        simp only [Prod.mk.injEq, Except.ok.injEq] at e
        obtain ⟨rfl, e⟩ := e
        rw [e]
        rfl
      · rename_i hge
        rw [if_neg hge]
        exact key { r with br := r.br + r.buflen, buflen := 0, buf := none } b (r.want n - r.buflen) hu e

theorem unused_scrub (L : ZlibLaws zl) {m : Bytes} {clen : Nat} {content : Bytes} (hm : IsZip zl m clen content) :
    ∀ (fuel : Nat) (r q : Reader), RInv zl m clen content content.length r → r.br = 0 → r.scrub zl fuel = (q, .ok ()) →
      (r.plus r.zip.unused.length).scrubOld zl fuel = (q.plus q.zip.unused.length, .ok ()) ∧ (q.zip.unused ≠ [] ∨ q.cbr = m.length)
  | 0, r, q, _, _, e => by simp [Reader.scrub] at e
  | fuel + 1, r, q, hr, hb, e => by
    unfold Reader.scrub at e
    unfold Reader.scrubOld
    by_cases hs : r.zip.unused = [] ∧ r.cbr ≠ r.m.length
    · rw [if_pos hs] at e
      obtain ⟨r1, d, e1, st⟩ := readCore_fuel L hm content.length r PAGESIZE hr
      have hd : d = [] := by
        have := st.data
        rw [List.drop_eq_nil_of_le (by omega)] at this
        simpa using this
      subst hd
      have e2 := unused_empty _ _ _ _ hs.1 e1
      rw [e1] at e
      have hx : ((r.plus r.zip.unused.length).zip.unused = [] ∧ (r.plus r.zip.unused.length).cbr ≠ (r.plus r.zip.unused.length).m.length) := by
        rw [hs.1]
        refine ⟨hs.1, ?_⟩
        rw [List.length_nil, Int.natCast_zero, plus_zero]
        exact hs.2
      rw [if_pos hx, show (r.plus r.zip.unused.length).fuel = r.fuel from rfl, e2]
      exact unused_scrub L hm fuel r1 q st.inv (by rw [st.br, hb]; rfl) e
    · rw [if_neg hs] at e
      cases e
      have hx : ¬((r.plus r.zip.unused.length).zip.unused = [] ∧ (r.plus r.zip.unused.length).cbr ≠ (r.plus r.zip.unused.length).m.length) := by
        rintro ⟨h1, h2⟩
        have h1 : r.zip.unused = [] := h1
        rw [h1, List.length_nil, Int.natCast_zero, plus_zero] at h2
        exact hs ⟨h1, h2⟩
      rw [if_neg hx]
      refine ⟨rfl, ?_⟩
      by_cases hu : r.zip.unused = []
      · right
        rw [← hr.m_eq]
        exact Classical.byContradiction fun h => hs ⟨hu, h⟩
      · exact .inl hu

theorem unused_count (L : ZlibLaws zl) {m : Bytes} {clen : Nat} {content : Bytes} (hm : IsZip zl m clen content) (h : Nat) (r q : Reader) (k : Int)
    (hr : RInv zl m clen content h r) (hS : r.hasS = true) (hs : h + r.s = content.length) (hbr : r.br = r.s) (fuel : Nat)
    (e : r.compressedBytesRead zl fuel = (q, .ok k)) :
    (r.plus r.zip.unused.length).compressedBytesReadOld zl fuel = (q.plus q.zip.unused.length, .ok (k + q.zip.unused.length)) ∧
    (q.zip.unused ≠ [] ∨ k = m.length) := by
  have hbl : r.buflen = 0 := by
    have h1 := hr.pos
    have h2 := hr.buf_len
    rcases heof : r.zip.eof with _ | _
    · obtain ⟨n, -, -, -, h3, -⟩ := hr.zinv.running heof
      have := zip_avail_le L hm n
      omega
    · have := (hr.zinv.ended heof).1
      omega
  unfold Reader.compressedBytesRead Reader.needS at e
  unfold Reader.compressedBytesReadOld Reader.needSOld
  rw [if_pos hS] at e
  rw [if_pos (show (r.plus r.zip.unused.length).hasS = true from hS)]
  dsimp only at e ⊢
  by_cases hu : r.zip.unused = []
  · rw [if_pos ⟨hbr, hu⟩] at e
    rw [if_pos (show (r.plus r.zip.unused.length).br = (r.plus r.zip.unused.length).s ∧ (r.plus r.zip.unused.length).zip.unused = [] from ⟨hbr, hu⟩)]
    have hb : r.buf.getD [] = [] := by
      have := hr.buf_len
      rw [hbl] at this
      exact List.length_eq_zero_iff.mp (by omega)
    rcases e1 : ({ r with br := 0 } : Reader).scrub zl fuel with ⟨p, x | ⟨⟩⟩
    · rw [e1] at e
      simp at e
    rw [e1] at e
    dsimp only at e
    cases e
    obtain ⟨e2, e3⟩ := unused_scrub L hm fuel { r with br := 0 } p (by
        constructor
        · exact hr.m_eq
        · exact hr.zinv
        · simp
        · have := hr.br_nonneg; simp only; omega
        · have := hr.pos; simp only; omega
        · exact hr.buf_len
        · simp only [hb, hbl]; simp
        · exact hr.cbr_eq) rfl e1
    have e4 : ({ r.plus r.zip.unused.length with br := 0 } : Reader).scrubOld zl fuel = (p.plus p.zip.unused.length, .ok ()) := e2
    rw [e4]
    exact ⟨rfl, e3⟩
  · rw [if_neg fun h => hu h.2] at e
    cases e
    rw [if_neg (show ¬((r.plus r.zip.unused.length).br = (r.plus r.zip.unused.length).s ∧ (r.plus r.zip.unused.length).zip.unused = []) from fun h => hu h.2)]
    exact ⟨rfl, .inl hu⟩

/-- A sequence of calls, see `Reader.steps`. -/
def Reader.stepsOld (zl : Zlib) (r : Reader) (ops : List ReaderOp) : Reader := ops.foldl (fun r op => (r.stepOld zl op).1) r

end GitDB

namespace GitDB.Props
open GitDB Spec

/-- Results of the same call: equal, but a number may be larger. -/
def SameButCount (a b : Res ReaderOut) : Prop := b = a ∨ ∃ n n', a = .ok (.number n) ∧ b = .ok (.number n') ∧ n ≤ n'

theorem counts_step (zl : Zlib) (r r' : Reader) (h : Counts r r') (op : ReaderOp) :
    Counts (r.step zl op).1 (r'.stepOld zl op).1 ∧ SameButCount (r.step zl op).2 (r'.stepOld zl op).2 ∧
    ((r.step zl op).1.zip.unused = [] → (r'.stepOld zl op).2 = (r.step zl op).2) := by
  rcases op with n | ⟨o, w⟩ | f
  · obtain ⟨hi, he⟩ := counts_read (zl := zl) r r' n h
    unfold Reader.step Reader.stepOld
    rcases h1 : r.read zl n with ⟨q, e | d⟩ <;> rcases h2 : r'.readOld zl n with ⟨q', e' | d'⟩ <;> simp only [h1, h2] at hi he ⊢ <;> cases he
    · exact ⟨hi, .inl rfl, fun _ => rfl⟩
    · exact ⟨hi, .inl rfl, fun _ => rfl⟩
  · obtain ⟨hi, he⟩ := counts_seek r r' o w h
    unfold Reader.step Reader.stepOld
    rcases h1 : r.seek o w with ⟨q, e | d⟩ <;> rcases h2 : r'.seek o w with ⟨q', e' | d'⟩ <;> simp only [h1, h2] at hi he ⊢ <;> cases he
    · exact ⟨hi, .inl rfl, fun _ => rfl⟩
    · exact ⟨hi, .inl rfl, fun _ => trivial⟩
  · obtain ⟨hi, x, h0, hx, he⟩ := counts_count (zl := zl) f r r' h
    unfold Reader.step Reader.stepOld
    rcases h1 : r.compressedBytesRead zl f with ⟨q, e | d⟩ <;> rcases h2 : r'.compressedBytesReadOld zl f with ⟨q', e' | d'⟩ <;>
      simp only [h1, h2, NumberPlus] at hi hx he ⊢
    · subst he
      exact ⟨hi, .inl rfl, fun _ => rfl⟩
    · subst he
      refine ⟨hi, .inr ⟨_, _, rfl, rfl, by omega⟩, fun hu => ?_⟩
      rw [hx hu, Int.add_zero]

/-- **C113** whatever the calls (also after exceptions) on a reader of whatever data, with zlib 1.2.5 and 1.2.7 each returns or raises the same as with the other
versions, but `compressed_bytes_read` may return more; it does not as long as zlib has seen no byte behind the end of the stream. -/
theorem C113_same (zl : Zlib) (m : Bytes) (size : Int) (ops : List ReaderOp) (op : ReaderOp) :
    SameButCount (((Reader.ofSize m size).steps zl ops).step zl op).2 (((Reader.ofSize m size).stepsOld zl ops).stepOld zl op).2 ∧
    ((((Reader.ofSize m size).steps zl ops).step zl op).1.zip.unused = [] →
      (((Reader.ofSize m size).stepsOld zl ops).stepOld zl op).2 = (((Reader.ofSize m size).steps zl ops).step zl op).2) := by
  have : ∀ (ops : List ReaderOp) (r r' : Reader), Counts r r' → Counts (r.steps zl ops) (r'.stepsOld zl ops) := by
    intro ops
    induction ops with
    | nil => exact fun _ _ h => h
    | cons op ops ih => exact fun r r' h => ih _ _ (counts_step zl r r' h op).1
  exact (counts_step zl _ _ (this ops _ _ (counts_refl fun _ => rfl)) op).2

/-- **C113** the same for readers of loose objects: `new` raises the same or finds the same type and size, and what follows is as above. -/
theorem C113_new (zl : Zlib) (m : Bytes) :
    (∃ e, Reader.new zl m = .error e ∧ Reader.newOld zl m = .error e) ∨
    ∃ ty size r r', Reader.new zl m = .ok (ty, size, r) ∧ Reader.newOld zl m = .ok (ty, size, r') ∧
      ∀ (ops : List ReaderOp) (op : ReaderOp), SameButCount ((r.steps zl ops).step zl op).2 ((r'.stepsOld zl ops).stepOld zl op).2 := by
  have hs : ∀ (ops : List ReaderOp) (r r' : Reader), Counts r r' → Counts (r.steps zl ops) (r'.stepsOld zl ops) := by
    intro ops
    induction ops with
    | nil => exact fun _ _ h => h
    | cons op ops ih => exact fun r r' h => ih _ _ (counts_step zl r r' h op).1
  obtain ⟨hi, he⟩ := counts_header (zl := zl) (Reader.ofSize m 0) _ (counts_refl fun _ => rfl)
  unfold Reader.new Reader.newOld
  rcases h1 : (Reader.ofSize m 0).parseHeaderInfo zl with ⟨q, e | ⟨t, n⟩⟩ <;> rcases h2 : (Reader.ofSize m 0).parseHeaderInfoOld zl with ⟨q', e' | ⟨t', n'⟩⟩ <;>
    rw [h1, h2] at hi he <;> dsimp only at hi he <;> cases he
  · exact .inl ⟨e, rfl, rfl⟩
  · exact .inr ⟨t, n, q, q', rfl, rfl, fun ops op => (counts_step zl _ _ (hs ops _ _ hi) op).2.1⟩

/-- **C113** of the two branches one is right: after everything was read, in whatever steps, the results of `compressed_bytes_read()` differ by the number `u` of bytes behind the
stream that zlib has seen, and one of them is the length of the compressed form.  If something follows the stream, as in every pack, then the other one is wrong. -/
theorem C113_one_right (zl : Zlib) (L : ZlibLaws zl) (m : Bytes) (clen : Nat) (content : Bytes) (hm : IsZip zl m clen content) (hne : content ≠ [])
    (ns : List Int) (r : Reader) (ps : List Bytes)
    (h1 : readMany (Reader.read zl) (Reader.ofSize m content.length) ns = (r, .ok ps)) (h2 : ps.flatten = content)
    (fuel : Nat) (hf : m.length + 3 ≤ fuel) :
    ∃ r' k u, readMany (Reader.readOld zl) (Reader.ofSize m content.length) ns = (r', .ok ps) ∧
      (r.compressedBytesRead zl fuel).2 = .ok k ∧ (r'.compressedBytesReadOld zl fuel).2 = .ok (k + (u : Nat)) ∧
      (k = clen ∨ k + u = clen) ∧ clen + u ≤ m.length ∧ (clen < m.length → 0 < u) := by
  obtain ⟨r0, ps0, k1, k2, k3, k4, k5, k6, -⟩ := readMany_reader L hm 0 ns
    (Reader.ofSize m content.length) (rinv_ofSize L hm _ (by omega)) rfl
  rw [h1] at k1
  cases k1
  have hs : r.s = content.length := k5
  have hb : r.br = content.length := by rw [k4, h2]; simp [Reader.ofSize]
  obtain ⟨q, e1, e2, e3⟩ := C15_exact zl L m clen content hm hne ns r ps h1 h2 fuel hf
  obtain ⟨e4, e5⟩ := unused_count L hm 0 r q _ k2 k6 (by rw [hs]; simp) (by rw [hb, hs]) fuel e1
  have e6 := unused_many L hm 0 ns _ _ _ (rinv_ofSize L hm _ (Int.natCast_nonneg _)) (by simp [Reader.ofSize]) rfl h1
  refine ⟨_, _, q.zip.unused.length, e6, by rw [e1], by rw [e4], ?_, e3, fun h => ?_⟩
  · rcases e2 with e2 | e2
    · left; rw [e2]; simp
    · right; rw [e2]; omega
  · rcases e5 with e5 | e5
    · exact List.length_pos_iff.mpr e5
    · omega

/-- **C113** if each read asks for everything, as for the objects of a pack of up to 512 KiB when it is iterated, the branch for zlib 1.2.5 and 1.2.7 is wrong if anything follows the stream. -/
theorem C113_wrong (zl : Zlib) (L : ZlibLaws zl) (m : Bytes) (clen : Nat) (content : Bytes) (hm : IsZip zl m clen content) (hne : content ≠ [])
    (hlt : clen < m.length) (ns : List Int) (hns : ∀ n ∈ ns, n < 1 ∨ (content.length : Int) ≤ n) (r : Reader) (ps : List Bytes)
    (h1 : readMany (Reader.read zl) (Reader.ofSize m content.length) ns = (r, .ok ps)) (h2 : ps.flatten = content)
    (fuel : Nat) (hf : m.length + 3 ≤ fuel) :
    ∃ r' k, readMany (Reader.readOld zl) (Reader.ofSize m content.length) ns = (r', .ok ps) ∧
      (r.compressedBytesRead zl fuel).2 = .ok (clen : Int) ∧ (r'.compressedBytesReadOld zl fuel).2 = .ok k ∧ (clen : Int) < k := by
  obtain ⟨r', k, u, e1, e2, e3, -, -, e4⟩ := C113_one_right zl L m clen content hm hne ns r ps h1 h2 fuel hf
  obtain ⟨q, e5⟩ := C15_compressed_size_partial zl L m clen content hm hne ns hns r ps h1 h2 fuel hf
  rw [e5] at e2
  cases e2
  exact ⟨r', _, e1, by rw [e5], e3, by have := e4 hlt; omega⟩

/-- **C113** so with these versions of zlib the iteration of a pack with two objects finds the first one and then reads at a wrong offset. -/
theorem C113_iteration : ∃ (zl : Zlib) (p : PackFile), ZlibLaws zl ∧
    ((p.streamIter zl 60 5 0).1.map PackObj.packOffset, (p.streamIter zl 60 5 0).2) = ([12, 20], .ok ()) ∧
    ((p.streamIterOld zl 60 5 0).1.map PackObj.packOffset, (p.streamIterOld zl 60 5 0).2) = ([12], .error .assertionError) :=
  ⟨toyZlib, ⟨twoPack, 2, 2⟩, toyZlib_laws, by decide +kernel, by decide +kernel⟩

/-- 30 bytes compressed to 4, between other data: read at once the usual branch returns 4 and the other one too much, -/
example : ∃ r ps r' k, readMany (Reader.read toyZlib) (Reader.ofSize ([253, 30, 7, 255] ++ List.replicate 40 1) 30) [-1] = (r, .ok ps) ∧
    readMany (Reader.readOld toyZlib) (Reader.ofSize ([253, 30, 7, 255] ++ List.replicate 40 1) 30) [-1] = (r', .ok ps) ∧
    (r.compressedBytesRead toyZlib 47).2 = .ok 4 ∧ (r'.compressedBytesReadOld toyZlib 47).2 = .ok k ∧ 4 < k := by
  have hz : IsZip toyZlib ([253, 30, 7, 255] ++ List.replicate 40 1) 4 (List.replicate 30 7) := ⟨by decide +kernel, by decide +kernel⟩
  have h1 : readMany (Reader.read toyZlib) (Reader.ofSize ([253, 30, 7, 255] ++ List.replicate 40 1) (List.replicate 30 7 : Bytes).length) [-1] =
      (_, .ok [List.replicate 30 7]) := Prod.ext rfl (by decide +kernel)
  obtain ⟨r', k, e1, e2, e3, e4⟩ := C113_wrong toyZlib toyZlib_laws _ 4 _ hz (by decide) (by decide) [-1] (by decide) _ _ h1 (by decide) 47 (by decide)
  exact ⟨_, _, r', k, h1, e1, e2, e3, e4⟩

/-- but read as 10 + 20 the usual branch returns -15 and the other one 4. -/
example : ((readMany (Reader.read toyZlib) (Reader.ofSize ([253, 30, 7, 255] ++ List.replicate 40 1) 30) [10, 20]).1.compressedBytesRead toyZlib 47).2 = .ok (-15) ∧
    ((readMany (Reader.readOld toyZlib) (Reader.ofSize ([253, 30, 7, 255] ++ List.replicate 40 1) 30) [10, 20]).1.compressedBytesReadOld toyZlib 47).2 = .ok 4 := by
  decide +kernel

/-- Reads, a bad `seek` and a `seek` to the start. -/
example := C113_same toyZlib ([253, 30, 7, 255] ++ List.replicate 40 1) 30 [.read 10, .seek 3 0, .read 20, .seek 0 0, .read (-1)] (.count 47)

/-- A loose object. -/
example : ∃ ty size r r', Reader.new toyZlib [98, 108, 111, 98, 32, 50, 0, 65, 66, 255] = .ok (ty, size, r) ∧ Reader.newOld toyZlib [98, 108, 111, 98, 32, 50, 0, 65, 66, 255] = .ok (ty, size, r') := by
  rcases C113_new toyZlib [98, 108, 111, 98, 32, 50, 0, 65, 66, 255] with ⟨e, h, -⟩ | ⟨ty, size, r, r', h1, h2, -⟩
  · have : (match Reader.new toyZlib [98, 108, 111, 98, 32, 50, 0, 65, 66, 255] with | .ok _ => true | .error _ => false) = true := by decide +kernel
    rw [h] at this
    cases this
  · exact ⟨ty, size, r, r', h1, h2⟩

end GitDB.Props
