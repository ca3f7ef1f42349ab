import Verif.Model.Window
import Verif.Proofs.AnyBytes
import Verif.Proofs.PackRead
import Verif.Proofs.PackChain
/-!
# Copying a cut stream
-/
set_option autoImplicit false

namespace GitDB
open Spec
variable {zl : Zlib}

/-- Nothing is read beyond the end of the output. -/
theorem anyRead_bound {m : Bytes} {h : Nat} {r r' : Reader} {d : Bytes} (hr : AnyR zl m h r) (a : AnyRead zl m h r r' d)
    (hb : h + r.br.toNat ≤ (zl.out m).length) : h + r'.br.toNat ≤ (zl.out m).length := by
  have h0 := hr.br0
  have := congrArg List.length a.data
  rw [List.length_take, List.length_drop] at this
  rw [a.br]
  omega

theorem copy_any (L : ZlibLaws zl) (m : Bytes) (hg : zl.bad m = false) (chunk : Int) (hc : 1 ≤ chunk) (h : Nat) :
    ∀ (fuel : Nat) (r : Reader), AnyR zl m h r → r.hasS = true → r.br < r.s → (r.s - r.br).toNat ≤ fuel → h + r.br.toNat ≤ (zl.out m).length →
      ∃ r', streamCopyLoop (Reader.read zl) nullWrite r.s chunk fuel r.br r () = (r', (), .ok r'.br) ∧ AnyR zl m h r' ∧ r'.s = r.s ∧
        r'.hasS = true ∧ h + r'.br.toNat ≤ (zl.out m).length := by
  intro fuel
  induction fuel with
  | zero => intro r _ _ h1 h2; omega
  | succ fuel ih =>
    intro r hr hs hlt hf hb
    rw [streamCopyLoop]
    rcases read_any L m h r (min chunk (r.s - r.br)) hr hs with ⟨r1, -, e2⟩ | ⟨r1, d, e1, e2⟩
    · rw [hg] at e2; cases e2
    · have hb' := anyRead_bound hr e2 hb
      have hbr := e2.br
      have hss := e2.s
      have hle := e2.inv.br_le
      simp only [e1, nullWrite]
      rw [← hbr]
      split
      · exact ⟨r1, rfl, e2.inv, hss, by rw [e2.hasS, hs], hb'⟩
      · rename_i hn
        obtain ⟨r2, k1, k2, k3, k4, k5⟩ := ih r1 e2.inv (by rw [e2.hasS, hs]) (by omega) (by omega) hb'
        rw [← hss]
        exact ⟨r2, k1, k2, by rw [k3], k4, k5⟩

/-- A region that contains an entry shows it. -/
theorem entryAt_take {pack : Bytes} {off : Nat} {e : Packed} (h : EntryAt zl pack off e) (n : Nat) (hn : off + e.bytes.length ≤ n) :
    EntryAt zl (pack.take n) off e := by
  obtain ⟨hv, rest, hd⟩ := h
  refine ⟨hv, rest.take (n - off - e.bytes.length), ?_⟩
  rw [List.drop_take, hd, List.take_append, List.take_of_length_le (by omega)]

/-- The entry with its compressed data cut: what is seen of it. -/
theorem packObjectAt_cut {pack : Bytes} {off : Nat} {e : Packed} (h : EntryAt zl pack off e) (n : Nat)
    (hn : off + (e.hdr ++ e.ext).length ≤ n) (hn2 : n ≤ off + e.bytes.length) :
    packObjectAt (pack.take n) off = .ok { entryObj pack off e with
      stream := Reader.ofSize (e.zip.take (n - (off + (e.hdr ++ e.ext).length))) e.content.length } := by
  obtain ⟨hv, rest, hd⟩ := h
  have hcut : (pack.take n).drop off = (e.hdr ++ e.ext) ++ e.zip.take (n - (off + (e.hdr ++ e.ext).length)) := by
    rw [List.drop_take, hd, Packed.bytes, List.append_assoc, List.take_append, List.take_of_length_le (by omega),
      List.take_append_of_le_length (by rw [Packed.bytes, List.length_append (as := e.hdr ++ e.ext)] at hn2; omega)]
    congr 2
    omega
  have hext := hv.ext
  have hh : packObjectHeaderInfo ((pack.take n).drop off) = .ok (e.kind.typeId, e.content.length, e.hdr.length) := by
    obtain ⟨b, bs, h1, h2, h3, h4⟩ := hv.head
    rw [h1] at h2
    rw [hcut, h1, List.append_assoc, packObjectHeaderInfo_spec h2, h3, h4]
    rfl
  unfold packObjectAt
  simp only [hh]
  have hdata : ((pack.take n).drop off).drop (e.hdr ++ e.ext).length = e.zip.take (n - (off + (e.hdr ++ e.ext).length)) := by
    rw [hcut, List.drop_left]
  rcases hk : e.kind with t | back | name
  · rw [hk] at hext
    obtain ⟨h6, h7, hx⟩ := hext
    rw [if_neg (show ¬ (Kind.whole t).typeId = OFS_DELTA from h6), if_neg (show ¬ (Kind.whole t).typeId = REF_DELTA from h7)]
    rw [hx, List.append_nil] at hdata ⊢
    rw [hdata]
    simp [entryObj, hk, hx, kindInfo]
  · rw [hk] at hext
    obtain ⟨hx, hb⟩ := hext
    rw [if_pos (show (Kind.ofs back).typeId = OFS_DELTA from rfl)]
    have := ofsDecode_spec hx e.hdr (e.zip.take (n - (off + (e.hdr ++ e.ext).length)))
    rw [← List.append_assoc, ← hcut] at this
    rw [List.length_append] at hdata
    simp only [this, entryObj, hk, kindInfo, hb, hdata, List.length_append]
  · rw [hk] at hext
    obtain ⟨hx, hb⟩ := hext
    rw [if_neg (show ¬ (Kind.ref name).typeId = OFS_DELTA from (by decide : ¬ (7 : Nat) = OFS_DELTA)),
      if_pos (show (Kind.ref name).typeId = REF_DELTA from rfl)]
    have hs : pySlice ((pack.take n).drop off) e.hdr.length (e.hdr.length + 20) = name := by
      rw [hcut, pySlice, List.append_assoc, List.drop_left, hb, show e.hdr.length + 20 - e.hdr.length = name.length by omega, List.take_left]
    rw [hs]
    rw [List.length_append, hb, hx] at hdata
    simp only [entryObj, hk, kindInfo, List.length_append, hb, hx, hdata]

theorem collectStreamsW_spec {find : Bytes → Option Nat} (w : Regions) (p : PackFile) :
    ∀ (a : List (Nat × Packed)) (off o : Nat) (e : Packed) (t : List (Nat × Packed)) (fuel : Nat),
    Chain zl p.data find off (a ++ (o, e) :: t) → (∀ x ∈ a, x.2.kind.isOfs = true) → e.kind.isOfs = false →
    (∀ x ∈ a ++ [(o, e)], x.1 + x.2.bytes.length ≤ w x.1) → a.length < fuel →
    p.collectStreamsW w fuel off = .ok ((a ++ [(o, e)]).map fun x => chainObj (p.data.take (w x.1)) x) := by
  intro a
  induction a with
  | nil =>
    intro off o e t fuel h _ he hw hf
    obtain ⟨f, rfl⟩ : ∃ f, fuel = f + 1 := ⟨fuel - 1, by omega⟩
    obtain ⟨e', t', h1, h2⟩ := chain_head h
    simp only [List.nil_append, List.cons.injEq, Prod.mk.injEq] at h1
    obtain ⟨⟨rfl, rfl⟩, rfl⟩ := h1
    have h3 := entryAt_take h2 (w o) (hw (o, e) (by simp))
    rw [PackFile.collectStreamsW, packObjectAtW, packObjectAt_spec h3]
    have := kindInfo_ofs he
    rcases hki : kindInfo e.kind with _ | n | s
    · simp [entryObj, hki, chainObj]
    · exact absurd hki (this n)
    · simp [entryObj, hki, chainObj]
  | cons x a ih =>
    intro off o e t fuel h ha he hw hf
    obtain ⟨f, rfl⟩ : ∃ f, fuel = f + 1 := ⟨fuel - 1, by omega⟩
    rw [List.length_cons] at hf
    have hx := ha x (by simp)
    rw [List.cons_append] at h
    generalize hl : a ++ (o, e) :: t = l at h
    cases h with
    | whole h hk => simp at hl
    | missing h hk hf' => simp at hl
    | ref h hk hf' ht =>
      simp [hk, Kind.isOfs] at hx
    | ofs h hk hb ht =>
      rename_i back e'
      subst hl
      have h3 := ih _ o e t f ht (fun x hx => ha x (by simp [hx])) he (fun x hx => hw x (by simp at hx ⊢; exact .inr hx)) (by omega)
      have h4 := entryAt_take h (w off) (hw (off, e') (by simp))
      rw [PackFile.collectStreamsW, packObjectAtW, packObjectAt_spec h4]
      simp only [entryObj, hk, kindInfo]
      rw [if_neg (by omega), h3]
      simp [chainObj, entryObj, hk, kindInfo]

end GitDB
