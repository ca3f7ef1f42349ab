import Verif.Props.Nest
import Verif.Proofs.Local
/-!
# C91: reading the beginning of an object looks only at the beginning of its compressed data
-/
set_option autoImplicit false

namespace GitDB.Props
open GitDB Spec

theorem readMany_local {zl : Zlib} (L : ZlibLaws zl) {m : Bytes} {clen : Nat} {content : Bytes} (hm : IsZip zl m clen content)
    (hns : NoStallFrom zl 1 m) (g : Nat) (hg : content = [] ∨ 0 < (zl.out (m.take g)).length) (m2 : Bytes) (B K : Nat)
    (hB : m2.take B = m.take B) : ∀ (ns : List Nat) (r : Reader), RInv zl m clen content 0 r → r.buf = none → r.hasS = true → Near content g r →
    r.s ≤ content.length → (∀ n ∈ ns, 0 < n ∧ n ≤ K) → 8 * (r.br + ns.sum) + g + max 8 K ≤ B →
    (readMany (Reader.read zl) (r.onto m2) (ns.map Nat.cast)).2 = (readMany (Reader.read zl) r (ns.map Nat.cast)).2 := by
  intro ns
  induction ns with
  | nil => intros; rfl
  | cons n ns ih =>
    intro r hr hbuf hs hn hsz hns hle
    have hb0 := hr.br_nonneg
    have hbs := hr.br_le
    have hpos := hr.pos
    have hbl := hr.buf_len
    rw [hbuf] at hbl
    simp at hbl
    obtain ⟨h1, h2⟩ := hns n List.mem_cons_self
    have hw : r.want n ≤ n ∧ r.want n ≤ r.s - r.br ∧ 0 ≤ r.want n := by
      unfold Reader.want
      rw [if_neg (by omega)]
      omega
    rw [List.sum_cons] at hle
    have e1 : r.read zl n = r.readCore zl r.fuel n := by unfold Reader.read Reader.needS; rw [if_pos hs]
    have e2 : (r.onto m2).read zl n = (r.onto m2).readCore zl r.fuel n := by
      unfold Reader.read Reader.needS
      rw [if_pos (show (r.onto m2).hasS = true from hs)]
      rfl
    have hloc : (r.onto m2).readCore zl r.fuel n = ((r.readCore zl r.fuel n).1.onto m2, (r.readCore zl r.fuel n).2) ∧
        Near content g (r.readCore zl r.fuel n).1 := by
      by_cases hz : r.want n = 0
      · unfold Reader.fuel
        rw [show (r.s - r.br).toNat + 3 = (r.s - r.br).toNat + 2 + 1 by omega, readCore_succ, readCore_succ,
          if_pos (show (r.onto m2).want n = 0 from hz), if_pos hz]
        exact ⟨rfl, hn⟩
      · apply readCore_local L hm ‹_› g hg 0 m2 B hB _ _ _ hr hbuf hn
        · intro _; omega
        · intro hp; omega
    obtain ⟨r', d, e, st⟩ := readCore_fuel L hm 0 r n hr
    have hbr := st.br
    have hbd := st.bounded hbuf
    rw [e] at hloc
    simp only [List.map_cons, readMany]
    rw [e1, e2, hloc.1, e]
    simp only
    have := ih r' st.inv (st.nobuf hbuf) (by rw [st.hasS]; exact hs) hloc.2 (by rw [st.s]; exact hsz)
      (fun k hk => hns k (List.mem_cons_of_mem _ hk)) (by omega)
    rcases h3 : readMany (Reader.read zl) (r'.onto m2) (ns.map Nat.cast) with ⟨x, e3 | p3⟩ <;>
      rcases h4 : readMany (Reader.read zl) r' (ns.map Nat.cast) with ⟨y, e4 | p4⟩ <;>
      rw [h3, h4] at this <;> simp at this <;> simp [this]

/-- **C91** reads of `N` bytes altogether, at most `K` at a time, depend on the first `8 * N + g + max 8 K` bytes of the compressed data only, if
there is output after `g` bytes and then after every eight.  What follows can be damaged or missing. -/
theorem C91_beginning {zl : Zlib} (L : ZlibLaws zl) {m : Bytes} {clen : Nat} {content : Bytes} (hm : IsZip zl m clen content)
    (hns : NoStallFrom zl 1 m) (g : Nat) (hg : content = [] ∨ 0 < (zl.out (m.take g)).length) (ns : List Nat) (K : Nat)
    (hK : ∀ n ∈ ns, 0 < n ∧ n ≤ K) (m2 : Bytes) (h2 : m2.take (8 * ns.sum + g + max 8 K) = m.take (8 * ns.sum + g + max 8 K)) :
    (readMany (Reader.read zl) (Reader.ofSize m2 content.length) (ns.map Nat.cast)).2 =
      (readMany (Reader.read zl) (Reader.ofSize m content.length) (ns.map Nat.cast)).2 := by
  apply readMany_local L hm hns g hg m2 _ K h2 ns (Reader.ofSize m content.length) (rinv_ofSize L hm _ (by omega)) rfl rfl ⟨Nat.le_refl _, fun _ => by simp [Reader.at, Reader.ofSize]⟩
    (Int.le_refl _) hK
  show 8 * ((0 : Int) + _) + _ + _ ≤ _
  omega

/-- **C91** opening a loose object (type, size and a reader) depends on its first `73728 + g` bytes only. -/
theorem C91_header {zl : Zlib} (L : ZlibLaws zl) {m : Bytes} {clen : Nat} {content : Bytes} (hm : IsZip zl m clen content)
    (hns : NoStallFrom zl 1 m) (g : Nat) (hg : content = [] ∨ 0 < (zl.out (m.take g)).length) (m2 : Bytes)
    (h2 : m2.take (73728 + g) = m.take (73728 + g)) :
    (Reader.new zl m2).map (fun o => (o.1, o.2.1)) = (Reader.new zl m).map (fun o => (o.1, o.2.1)) := by
  have hr := rinv_ofSize L hm maxHeader (by omega)
  have hw : (Reader.ofSize m (maxHeader : Nat)).want maxHeader = maxHeader := by
    unfold Reader.want Reader.ofSize
    split <;> simp
  have hloc := (readCore_local L hm hns g hg 0 m2 _ h2 (Reader.ofSize m maxHeader).fuel (Reader.ofSize m maxHeader) maxHeader hr rfl
    ⟨Nat.le_refl _, fun _ => by simp [Reader.at, Reader.ofSize]⟩
    (by intro _; rw [hw]; show (8 : Int) * (((0 : Nat) : Int) + _) + _ + _ ≤ _; unfold maxHeader; omega)
    (by intro _; rw [hw]; show ((0 : Nat) : Int) + _ ≤ _; unfold maxHeader; omega)).1
  obtain ⟨r', d, e, -⟩ := readCore_fuel L hm 0 _ maxHeader hr
  rw [e] at hloc
  unfold Reader.new Reader.parseHeaderInfo
  simp only
  rw [show ({ Reader.ofSize m2 0 with s := (maxHeader : Int), hasS := true } : Reader).fuel = (Reader.ofSize m maxHeader).fuel from rfl,
    show ({ Reader.ofSize m2 0 with s := (maxHeader : Int), hasS := true } : Reader) = (Reader.ofSize m maxHeader).onto m2 from rfl, hloc,
    show ({ Reader.ofSize m 0 with s := (maxHeader : Int), hasS := true } : Reader) = Reader.ofSize m maxHeader from rfl, e]
  simp only
  rcases parseObjectHeader d with x | ⟨ty, sz, he⟩ <;> rfl

/-- Streams without stalls at all: `g` is 8. -/
theorem C91_noStall {zl : Zlib} (L : ZlibLaws zl) {m : Bytes} {clen : Nat} {content : Bytes} (hm : IsZip zl m clen content)
    (hns : NoStall zl m) : NoStallFrom zl 1 m ∧ (content = [] ∨ 0 < (zl.out (m.take 8)).length) := by
  refine ⟨noStall_from hns 1, ?_⟩
  rcases Classical.em (content = []) with h | h
  · exact .inl h
  · have h1 := List.length_pos_iff.mpr h
    right
    rcases Nat.lt_or_ge (zl.out (m.take 0)).length content.length with h2 | h2
    · have := hns 0 (by rw [hm.out]; exact h2)
      rw [Nat.zero_add] at this
      omega
    · have := zip_avail_mono L hm (show 0 ≤ 8 by omega)
      omega

open Deflate

/-- Ten blocks of one byte each (71 bytes): two reads of one byte depend on the first 32 bytes, whatever follows. -/
example (rest : Bytes) :
    (readMany (Reader.read storedZlib) (Reader.ofSize ((pieces (List.replicate 10 0)).take 32 ++ rest) 10) [1, 1]).2 = .ok [[0], [0]] := by
  have hns : NoStall storedZlib (pieces (List.replicate 10 0)) := parts_noStall storing 0x78 0x01 (List.replicate 10 (0, [0]))
    (by intro p hp; rw [List.eq_of_mem_replicate hp]; exact ⟨by decide, by simp, by decide⟩) 1 (.inl (by decide)) _
  have hz := pieces_isZip storing (List.replicate 10 0)
  obtain ⟨h1, h2⟩ := C91_noStall storedZlib_laws hz hns
  have := C91_beginning storedZlib_laws hz h1 8 h2 [1, 1] 1 (by decide) ((pieces (List.replicate 10 0)).take 32 ++ rest)
    (List.take_left' (by decide +kernel))
  rw [show ((List.replicate (List.replicate 10 0).length 0 : Bytes).length : Int) = 10 by decide] at this
  exact this.trans (by decide +kernel)

end GitDB.Props
