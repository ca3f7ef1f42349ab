import Verif.Proofs.Copy
import Verif.Model.Delta
/-!
# C10: stream copies
-/
set_option autoImplicit false

namespace GitDB.Props
open GitDB Spec

variable {σ ω ρ : Type}

/-- **C10** copying from any file-like stream into any writer that stores what it is given: exactly
the first `min size available` bytes arrive, in order, that number is returned and the rest stays in the
source.  `size` iterations are always enough. -/
theorem C10_stream_copy (read : σ → Int → σ × Res Bytes) (write : ω → Bytes → ω × Res ρ)
    (Rep : σ → Bytes → Prop) (WRep : ω → Bytes → Prop)
    (hr : FileReads read Rep) (hw : ∀ cap, Stores write WRep cap) (size : Nat) (chunk : Int)
    (hc : 1 ≤ chunk) (fuel : Nat) (hf : size < fuel) (s : σ) (w : ω) (avail out : Bytes)
    (hs : Rep s avail) (ho : WRep w out) :
    ∃ s' w', streamCopy fuel read write size chunk s w =
        (s', w', .ok ((min size avail.length : Nat) : Int)) ∧
      Rep s' (avail.drop size) ∧ WRep w' (out ++ avail.take size) := by
  by_cases h0 : size = 0
  · subst h0
    obtain ⟨s', w', h1, h2, h3⟩ := streamCopy_zero_file hr (hw out.length) chunk hc fuel s w avail out
      hs ho (by omega) (by omega)
    exact ⟨s', w', by simpa using h1, by simpa using h2, by simpa using h3⟩
  · exact streamCopy_spec hr.toBoundedReads (hw (out.length + min size avail.length)) size chunk hc fuel
      s w avail out hs ho (by omega) (by omega) (by omega)

/-- **C10** the same for object streams, whose `read(0)` reads everything: `size` must not be 0 unless
the stream is exhausted. -/
theorem C10_stream_copy_object (read : σ → Int → σ × Res Bytes) (write : ω → Bytes → ω × Res ρ)
    (Rep : σ → Bytes → Prop) (WRep : ω → Bytes → Prop)
    (hr : ObjectReads read Rep) (hw : ∀ cap, Stores write WRep cap) (size : Nat) (chunk : Int)
    (hc : 1 ≤ chunk) (fuel : Nat) (hf : size < fuel) (s : σ) (w : ω) (avail out : Bytes)
    (hs : Rep s avail) (ho : WRep w out) (hz : size = 0 → avail = []) :
    ∃ s' w', streamCopy fuel read write size chunk s w =
        (s', w', .ok ((min size avail.length : Nat) : Int)) ∧
      Rep s' (avail.drop size) ∧ WRep w' (out ++ avail.take size) := by
  by_cases h0 : size = 0
  · subst h0
    rw [hz rfl] at hs ⊢
    obtain ⟨s', w', h1, h2, h3⟩ := streamCopy_zero_object hr (hw out.length) chunk hc fuel s w out
      hs ho (by omega) (by omega)
    exact ⟨s', w', by simpa using h1, by simpa using h2, by simpa using h3⟩
  · exact streamCopy_spec hr.toBoundedReads (hw (out.length + min size avail.length)) size chunk hc fuel
      s w avail out hs ho (by omega) (by omega) (by omega)

/-- **C10** the exception is real: with `size = 0` and an object stream that has data, everything is
written and the copy never returns. -/
theorem C10_size_zero_never_returns (read : σ → Int → σ × Res Bytes)
    (write : ω → Bytes → ω × Res ρ) (Rep : σ → Bytes → Prop) (WRep : ω → Bytes → Prop)
    (hr : ObjectReads read Rep) (hw : ∀ cap, Stores write WRep cap) (chunk : Int)
    (hc : 1 ≤ chunk) (fuel : Nat) (s : σ) (w : ω) (avail out : Bytes) (hs : Rep s avail)
    (hne : avail ≠ []) (ho : WRep w out) :
    (streamCopy fuel read write 0 chunk s w).2.2 = .error .diverge :=
  streamCopy_zero_diverges hr (hw _) chunk hc fuel s w avail out hs hne ho (Nat.le_refl _)

/-- **C10** whatever the source does (short reads, exceptions, non-termination) the bytes written are
exactly the bytes the source returned, in order, and the returned number counts them. -/
theorem C10_writes_what_was_read (read : σ → Int → σ × Res Bytes) (size chunk : Int) (fuel : Nat)
    (s : σ) :
    let logged : σ × Bytes → Int → (σ × Bytes) × Res Bytes := fun st n =>
      match read st.1 n with
      | (s, .ok d) => ((s, st.2 ++ d), .ok d)
      | (s, .error e) => ((s, st.2), .error e)
    let r := streamCopy fuel logged collect size chunk (s, []) []
    r.2.1 = r.1.2 ∧ ∀ n, r.2.2 = .ok n → n = r.2.1.length := by
  intro logged
  suffices h : ∀ (fuel : Nat) (dbw : Int) (st : σ × Bytes) (w : Bytes), dbw = w.length → w = st.2 →
      let r := streamCopyLoop logged collect size chunk fuel dbw st w
      r.2.1 = r.1.2 ∧ ∀ n, r.2.2 = .ok n → n = r.2.1.length by
    exact h fuel 0 (s, []) [] rfl rfl
  intro fuel
  induction fuel with
  | zero => intro dbw st w h1 h2; simp [streamCopyLoop, h2]
  | succ fuel ih =>
    intro dbw st w h1 h2
    rw [streamCopyLoop]
    simp only
    rcases hrd : read st.1 (min chunk (size - dbw)) with ⟨s1, e | d⟩
    · have : logged st (min chunk (size - dbw)) = ((s1, st.2), .error e) := by simp [logged, hrd]
      simp [this, h2]
    · have : logged st (min chunk (size - dbw)) = ((s1, st.2 ++ d), .ok d) := by simp [logged, hrd]
      simp only [this, collect]
      split
      · subst h2; subst h1; simp
      · exact ih _ _ _ (by simp [h1]) (by simp [h2])

/-- **C10** `write_object` emits the header followed by exactly the data and returns the number of bytes
emitted. -/
theorem C10_write_object (read : σ → Int → σ × Res Bytes) (Rep : σ → Bytes → Prop)
    (hr : FileReads read Rep) (type : Bytes) (size : Nat) (chunk : Int) (hc : 1 ≤ chunk) (fuel : Nat)
    (hf : size < fuel) (s : σ) (data rest : Bytes) (hs : Rep s (data ++ rest))
    (hd : data.length = size) (ha : ∀ b ∈ type, b.toNat < 128) :
    ∃ s' ds, IsDecimal ds size ∧ Rep s' rest ∧
      writeObject fuel type size read collectLen chunk s [] =
        (s', type ++ [0x20] ++ ds ++ [0] ++ data,
          .ok ((type ++ [0x20] ++ ds ++ [0] ++ data).length : Int)) := by
  have hh : looseObjectHeader type size = .ok (type ++ [0x20] ++ natToDec size ++ [0]) := by
    rw [looseObjectHeader, if_pos (by simpa using ha)]
  obtain ⟨s', w', h1, h2, h3⟩ := C10_stream_copy read collectLen Rep (fun w out => w = out) hr
    (fun cap => collectLen_stores cap) size chunk hc fuel hf s (type ++ [0x20] ++ natToDec size ++ [0])
    (data ++ rest) _ hs rfl
  subst h3
  rw [← hd, List.take_left, List.drop_left] at *
  refine ⟨s', natToDec data.length, natToDec_isDecimal _, h2, ?_⟩
  unfold writeObject
  simp only [hh, collectLen, List.nil_append] at h1 ⊢
  have hmin : min data.length (data ++ rest).length = data.length := by simp
  rw [hmin] at h1
  rw [h1]
  simp; omega

/-- `BytesIO` is a file-like stream, and a list of chunks a writer that stores. -/
example : FileReads bytesIORead (fun s rem => s = rem) := bytesIO_reads
example : ∀ cap, Stores collectLen (fun w out => w = out) cap := collectLen_stores
example : ObjectReads objRead (fun s rem => s = rem) := objRead_reads
example : streamCopy 6 bytesIORead collectLen 5 2 [1, 2, 3, 4, 5, 6, 7] [] =
    ([6, 7], [1, 2, 3, 4, 5], .ok 5) := by decide
example : (streamCopy 100 objRead collectLen 0 2 [1, 2, 3] []).2 = ([1, 2, 3], .error .diverge) := by
  decide

end GitDB.Props
