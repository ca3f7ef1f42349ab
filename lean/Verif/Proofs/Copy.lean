import Verif.Model.Copy
import Verif.Spec.Stream
import Verif.Proofs.Names
/-!
# Lemmas about `stream_copy`
-/
set_option autoImplicit false

namespace GitDB
open Spec

variable {σ ω ρ : Type}

/-- A writer that stores what is written as long as at most `cap` bytes have been written. -/
def Stores (write : ω → Bytes → ω × Res ρ) (WRep : ω → Bytes → Prop) (cap : Nat) : Prop :=
  ∀ w out d, WRep w out → (out ++ d).length ≤ cap →
    ∃ w' r, write w d = (w', .ok r) ∧ WRep w' (out ++ d)

theorem streamCopyLoop_from {read : σ → Int → σ × Res Bytes} {write : ω → Bytes → ω × Res ρ}
    {Rep : σ → Bytes → Prop} {WRep : ω → Bytes → Prop} {cap k : Nat}
    (hr : BoundedReadsFrom k read Rep) (hw : Stores write WRep cap) (size chunk : Int) (hc : 1 ≤ chunk) (hk : k ≤ chunk) :
    ∀ (fuel : Nat) (left : Nat) (dbw : Int) (s : σ) (w : ω) (rem out : Bytes),
      k ≤ 1 ∨ rem.length ≤ left → Rep s rem → WRep w out → size - dbw = left → 1 ≤ left → left ≤ fuel →
      out.length + min left rem.length ≤ cap →
      ∃ s' w', streamCopyLoop read write size chunk fuel dbw s w =
          (s', w', .ok (dbw + (min left rem.length : Nat))) ∧
        Rep s' (rem.drop left) ∧ WRep w' (out ++ rem.take left) := by
  intro fuel
  induction fuel with
  | zero => intro left dbw s w rem out _ _ _ _ h1 h2; omega
  | succ fuel ih =>
    intro left dbw s w rem out hkl hs hwr hleft h1 hf hcap
    have hcs : ∃ cs : Nat, min chunk (size - dbw) = cs ∧ 1 ≤ cs ∧ cs ≤ left := by
      refine ⟨(min chunk (size - dbw)).toNat, ?_, ?_, ?_⟩ <;> omega
    obtain ⟨cs, ecs, c1, c2⟩ := hcs
    obtain ⟨s1, e1, r1⟩ := hr.read_pos s rem cs hs (by omega) (by omega)
    simp only [Int.toNat_natCast] at e1 r1
    have hlen : (rem.take cs).length = min cs rem.length := by simp
    obtain ⟨w1, r, e2, r2⟩ := hw w out (rem.take cs) hwr (by
      rw [List.length_append, hlen]; omega)
    rw [streamCopyLoop]
    simp only [ecs, e1, e2, hlen]
    by_cases hstop : ((min cs rem.length : Nat) : Int) < cs ∨ dbw + (min cs rem.length : Nat) = size
    · rw [if_pos hstop]
      have hm : min cs rem.length = min left rem.length := by omega
      have ht : rem.take cs = rem.take left := by
        by_cases hh : rem.length ≤ cs
        · rw [List.take_of_length_le hh, List.take_of_length_le (by omega)]
        · have : cs = left := by omega
          rw [this]
      have hd : rem.drop cs = rem.drop left := by
        by_cases hh : rem.length ≤ cs
        · rw [List.drop_eq_nil_of_le hh, List.drop_eq_nil_of_le (by omega)]
        · have : cs = left := by omega
          rw [this]
      refine ⟨s1, w1, by rw [hm], hd ▸ r1, ht ▸ r2⟩
    · rw [if_neg hstop]
      have hle : cs ≤ rem.length := by omega
      have hmin : min cs rem.length = cs := by omega
      rw [hmin] at hstop ⊢
      obtain ⟨s', w', e3, r3, r4⟩ := ih (left - cs) (dbw + cs) s1 w1 (rem.drop cs)
        (out ++ rem.take cs) (by rw [List.length_drop]; omega) r1 r2 (by omega) (by omega) (by omega) (by
          rw [List.length_append, hlen, List.length_drop]; omega)
      refine ⟨s', w', ?_, ?_, ?_⟩
      · rw [e3, List.length_drop]
        congr 3
        omega
      · rw [List.drop_drop] at r3
        have : cs + (left - cs) = left := by omega
        rwa [this] at r3
      · rw [List.append_assoc] at r4
        have : rem.take cs ++ (rem.drop cs).take (left - cs) = rem.take left := by
          rw [List.take_drop]
          have : cs + (left - cs) = left := by omega
          rw [this]
          conv => rhs; rw [← List.take_append_drop cs (rem.take left)]
          rw [List.take_take, Nat.min_eq_left c2]
        rwa [this] at r4

theorem streamCopyLoop_spec {read : σ → Int → σ × Res Bytes} {write : ω → Bytes → ω × Res ρ}
    {Rep : σ → Bytes → Prop} {WRep : ω → Bytes → Prop} {cap : Nat}
    (hr : BoundedReads read Rep) (hw : Stores write WRep cap) (size chunk : Int) (hc : 1 ≤ chunk)
    (fuel : Nat) (left : Nat) (dbw : Int) (s : σ) (w : ω) (rem out : Bytes)
    (h1 : Rep s rem) (h2 : WRep w out) (h3 : size - dbw = left) (h4 : 1 ≤ left) (h5 : left ≤ fuel)
    (h6 : out.length + min left rem.length ≤ cap) :
      ∃ s' w', streamCopyLoop read write size chunk fuel dbw s w =
          (s', w', .ok (dbw + (min left rem.length : Nat))) ∧
        Rep s' (rem.drop left) ∧ WRep w' (out ++ rem.take left) :=
  streamCopyLoop_from (hr.above 0) hw size chunk hc (by omega) fuel left dbw s w rem out (.inl (by omega)) h1 h2 h3 h4 h5 h6

/-- Reads of large pieces suffice if everything is copied. -/
theorem streamCopy_from {read : σ → Int → σ × Res Bytes} {write : ω → Bytes → ω × Res ρ}
    {Rep : σ → Bytes → Prop} {WRep : ω → Bytes → Prop} {cap k : Nat}
    (hr : BoundedReadsFrom k read Rep) (hw : Stores write WRep cap) (size : Nat) (chunk : Int)
    (hc : 1 ≤ chunk) (hk : k ≤ chunk) (fuel : Nat) (s : σ) (w : ω) (rem out : Bytes) (hrem : rem.length ≤ size) (hs : Rep s rem)
    (hwr : WRep w out) (h1 : 1 ≤ size) (hf : size ≤ fuel)
    (hcap : out.length + min size rem.length ≤ cap) :
    ∃ s' w', streamCopy fuel read write size chunk s w =
        (s', w', .ok ((min size rem.length : Nat) : Int)) ∧
      Rep s' (rem.drop size) ∧ WRep w' (out ++ rem.take size) := by
  have := streamCopyLoop_from hr hw size chunk hc hk fuel size 0 s w rem out (.inr hrem) hs hwr (by omega) h1 hf hcap
  simpa [streamCopy] using this

theorem streamCopy_spec {read : σ → Int → σ × Res Bytes} {write : ω → Bytes → ω × Res ρ}
    {Rep : σ → Bytes → Prop} {WRep : ω → Bytes → Prop} {cap : Nat}
    (hr : BoundedReads read Rep) (hw : Stores write WRep cap) (size : Nat) (chunk : Int)
    (hc : 1 ≤ chunk) (fuel : Nat) (s : σ) (w : ω) (rem out : Bytes) (hs : Rep s rem)
    (hwr : WRep w out) (h1 : 1 ≤ size) (hf : size ≤ fuel)
    (hcap : out.length + min size rem.length ≤ cap) :
    ∃ s' w', streamCopy fuel read write size chunk s w =
        (s', w', .ok ((min size rem.length : Nat) : Int)) ∧
      Rep s' (rem.drop size) ∧ WRep w' (out ++ rem.take size) := by
  have := streamCopyLoop_spec hr hw size chunk hc fuel size 0 s w rem out hs hwr (by omega) h1 hf hcap
  simpa [streamCopy] using this

/-- `size = 0` on a file object. -/
theorem streamCopy_zero_file {read : σ → Int → σ × Res Bytes} {write : ω → Bytes → ω × Res ρ}
    {Rep : σ → Bytes → Prop} {WRep : ω → Bytes → Prop} {cap : Nat}
    (hr : FileReads read Rep) (hw : Stores write WRep cap) (chunk : Int)
    (hc : 1 ≤ chunk) (fuel : Nat) (s : σ) (w : ω) (rem out : Bytes) (hs : Rep s rem)
    (hwr : WRep w out) (hf : 1 ≤ fuel) (hcap : out.length ≤ cap) :
    ∃ s' w', streamCopy fuel read write 0 chunk s w = (s', w', .ok 0) ∧ Rep s' rem ∧ WRep w' out := by
  obtain ⟨f, rfl⟩ : ∃ f, fuel = f + 1 := ⟨fuel - 1, by omega⟩
  obtain ⟨s1, e1, r1⟩ := hr.read_zero s rem hs
  obtain ⟨w1, r, e2, r2⟩ := hw w out [] hwr (by simpa using hcap)
  refine ⟨s1, w1, ?_, r1, by simpa using r2⟩
  have hm : min chunk 0 = 0 := by omega
  simp [streamCopy, streamCopyLoop, hm, e1, e2]

/-- `size = 0` on an exhausted object stream. -/
theorem streamCopy_zero_from {read : σ → Int → σ × Res Bytes} {write : ω → Bytes → ω × Res ρ}
    {Rep : σ → Bytes → Prop} {WRep : ω → Bytes → Prop} {cap k : Nat}
    (hr : ObjectReadsFrom k read Rep) (hw : Stores write WRep cap) (chunk : Int)
    (hc : 1 ≤ chunk) (fuel : Nat) (s : σ) (w : ω) (out : Bytes) (hs : Rep s [])
    (hwr : WRep w out) (hf : 1 ≤ fuel) (hcap : out.length ≤ cap) :
    ∃ s' w', streamCopy fuel read write 0 chunk s w = (s', w', .ok 0) ∧ Rep s' [] ∧ WRep w' out := by
  obtain ⟨f, rfl⟩ : ∃ f, fuel = f + 1 := ⟨fuel - 1, by omega⟩
  obtain ⟨s1, e1, r1⟩ := hr.read_all s [] 0 hs (by omega)
  obtain ⟨w1, r, e2, r2⟩ := hw w out [] hwr (by simpa using hcap)
  refine ⟨s1, w1, ?_, r1, by simpa using r2⟩
  have hm : min chunk 0 = 0 := by omega
  simp [streamCopy, streamCopyLoop, hm, e1, e2]

theorem streamCopy_zero_object {read : σ → Int → σ × Res Bytes} {write : ω → Bytes → ω × Res ρ}
    {Rep : σ → Bytes → Prop} {WRep : ω → Bytes → Prop} {cap : Nat}
    (hr : ObjectReads read Rep) (hw : Stores write WRep cap) (chunk : Int)
    (hc : 1 ≤ chunk) (fuel : Nat) (s : σ) (w : ω) (out : Bytes) (hs : Rep s [])
    (hwr : WRep w out) (hf : 1 ≤ fuel) (hcap : out.length ≤ cap) :
    ∃ s' w', streamCopy fuel read write 0 chunk s w = (s', w', .ok 0) ∧ Rep s' [] ∧ WRep w' out :=
  streamCopy_zero_from (hr.above 0) hw chunk hc fuel s w out hs hwr hf hcap

/-- With `size = 0` on an object stream that still has data, the first `read(0)` delivers everything,
and the loop never ends. -/
theorem streamCopyLoop_negative {read : σ → Int → σ × Res Bytes} {write : ω → Bytes → ω × Res ρ}
    {Rep : σ → Bytes → Prop} {WRep : ω → Bytes → Prop} {cap : Nat}
    (hr : ObjectReads read Rep) (hw : Stores write WRep cap) (size chunk : Int) :
    ∀ (fuel : Nat) (dbw : Int) (s : σ) (w : ω) (out : Bytes), Rep s [] → WRep w out →
      out.length ≤ cap → size < dbw →
      (streamCopyLoop read write size chunk fuel dbw s w).2.2 = .error .diverge := by
  intro fuel
  induction fuel with
  | zero => intros; rfl
  | succ fuel ih =>
    intro dbw s w out hs hwr hcap hlt
    obtain ⟨s1, e1, r1⟩ := hr.read_all s [] (min chunk (size - dbw)) hs (by omega)
    obtain ⟨w1, r, e2, r2⟩ := hw w out [] hwr (by simpa using hcap)
    rw [streamCopyLoop]
    simp only [e1, e2]
    rw [if_neg (by simp; omega)]
    simpa using ih dbw s1 w1 out r1 (by simpa using r2) hcap hlt

theorem streamCopy_zero_diverges {read : σ → Int → σ × Res Bytes} {write : ω → Bytes → ω × Res ρ}
    {Rep : σ → Bytes → Prop} {WRep : ω → Bytes → Prop} {cap : Nat}
    (hr : ObjectReads read Rep) (hw : Stores write WRep cap) (chunk : Int) (hc : 1 ≤ chunk)
    (fuel : Nat) (s : σ) (w : ω) (rem out : Bytes) (hs : Rep s rem) (hne : rem ≠ [])
    (hwr : WRep w out) (hcap : (out ++ rem).length ≤ cap) :
    (streamCopy fuel read write 0 chunk s w).2.2 = .error .diverge := by
  cases fuel with
  | zero => rfl
  | succ fuel =>
    have hpos := List.length_pos_iff.mpr hne
    obtain ⟨s1, e1, r1⟩ := hr.read_all s rem (min chunk 0) hs (by omega)
    obtain ⟨w1, r, e2, r2⟩ := hw w out rem hwr hcap
    rw [streamCopy, streamCopyLoop]
    simp only [Int.sub_zero] at e1 ⊢
    simp only [e1, e2]
    rw [if_neg (by omega)]
    exact streamCopyLoop_negative hr hw 0 chunk fuel _ s1 w1 _ r1 r2 hcap (by omega)

/-! ### instances -/

theorem bytesIO_reads : FileReads bytesIORead (fun s rem => s = rem) where
  read_pos := by
    rintro s rem n rfl hn
    exact ⟨_, by rw [bytesIORead, if_neg (by omega)], rfl⟩
  read_zero := by
    rintro s rem rfl
    exact ⟨_, by rw [bytesIORead, if_neg (by omega)]; rfl, rfl⟩

/-- A writer collecting everything and returning the number of bytes. -/
def collectLen (w d : Bytes) : Bytes × Res (Option Int) := (w ++ d, .ok (some d.length))

theorem collectLen_stores (cap : Nat) : Stores collectLen (fun w out => w = out) cap := by
  rintro w out d rfl _
  exact ⟨_, _, rfl, rfl⟩

/-- An object stream over a byte string. -/
def objRead (rem : Bytes) (n : Int) : Bytes × Res Bytes :=
  if n < 1 then ([], .ok rem) else (rem.drop n.toNat, .ok (rem.take n.toNat))

theorem objRead_reads : ObjectReads objRead (fun s rem => s = rem) where
  read_pos := by
    rintro s rem n rfl hn
    exact ⟨_, by rw [objRead, if_neg (by omega)], rfl⟩
  read_all := by
    rintro s rem n rfl hn
    exact ⟨_, by rw [objRead, if_pos (by omega)], rfl⟩

end GitDB
