import Verif.Proofs.DeltaReader
/-!
# C08: delta chain resolution
-/
set_option autoImplicit false

namespace GitDB.Props
open GitDB Spec

variable {σ : Type}

/-- **C08** resolving a chain of deltas (any number of them) over a base: the reader announces the size of
the fully resolved object, and is then a well behaved stream of exactly that object.
`streams` is the list given to `DeltaApplyReader`: topmost delta first, the base last.  Of these streams only reads
of at least 512 bytes, or of everything, need to be right. -/
theorem C08_resolve (read : σ → Int → σ × Res Bytes) (Rep : σ → Bytes → Prop)
    (hr : ObjectReadsFrom 512 read Rep) (base : Bytes) (ds : List DeltaObj) (hne : ds ≠ [])
    (hc : ChainFits base ds) (bs : σ) (hbs : Rep bs base) (ss : List (σ × Nat))
    (hss : All2 (fun d (s : σ × Nat) => Rep s.1 d.bytes ∧ s.2 = d.bytes.length) ds.reverse ss) :
    ∃ F, ∀ fuel, F ≤ fuel → ∃ r, newDeltaReader fuel read (ss ++ [(bs, base.length)]) = .ok r ∧
      r.size = (resolveChain base ds).length ∧
      ∀ ns : List Int, ∃ r' ps,
        readMany (fun (r : DeltaReader) n => ((r.read n).1, .ok (r.read n).2)) r ns = (r', .ok ps) ∧
        ps.flatten = (resolveChain base ds).take (readLen (resolveChain base ds).length ns) := by
  obtain ⟨F, hF⟩ := setCacheBrute_spec hr base ds hne hc bs hbs ss hss
  refine ⟨F, fun fuel hf => ?_⟩
  obtain ⟨b, e, h1, h2⟩ := hF fuel hf
  have hlen : ss.length = ds.length := by rw [← all2_length hss, List.length_reverse]
  have hnew : newDeltaReader fuel read (ss ++ [(bs, base.length)]) =
      .ok ⟨b, (resolveChain base ds).length, 0⟩ := by
    unfold newDeltaReader
    rw [List.reverse_append, List.reverse_singleton, List.singleton_append]
    rcases hrev : ss.reverse with _ | ⟨x, xs⟩
    · have : ds.length = 0 := by rw [← hlen, ← List.length_reverse, hrev]; rfl
      exact absurd (List.length_eq_zero_iff.mp this) hne
    · simp only [← hrev, List.reverse_reverse, e]; rfl
  refine ⟨_, hnew, rfl, fun ns => ?_⟩
  obtain ⟨r', ps, h3, h4, _⟩ := readMany_spec (deltaReader_objectReads (resolveChain base ds)) ns
    ⟨b, (resolveChain base ds).length, 0⟩ (resolveChain base ds)
    ⟨rfl, h1, h2, Nat.zero_le _, by simp⟩
  exact ⟨r', ps, h3, h4⟩

/-- **C08** every single read, in any state of such a reader: `read(n)` with `n ≥ 1` returns the next
`min n left` bytes, `read()` and `read(0)` all that is left; and `seek(0)` goes back to the start. -/
theorem C08_read (content : Bytes) :
    ObjectReads (fun (r : DeltaReader) n => ((r.read n).1, .ok (r.read n).2))
      (DeltaReader.Delivers content) ∧
    ∀ r rem, DeltaReader.Delivers content r rem →
      ∃ r', r.seek 0 0 = .ok r' ∧ DeltaReader.Delivers content r' content := by
  refine ⟨deltaReader_objectReads content, ?_⟩
  rintro r rem ⟨h1, h2, _, _, _⟩
  exact ⟨{ r with br := 0, target := r.target.seek0 }, by simp [DeltaReader.seek], h1, h2, rfl,
    Nat.zero_le _, by simp⟩

/-- **C08** any other `seek` is refused with `ValueError`. -/
theorem C08_seek_other (r : DeltaReader) (offset whence : Int) (h : offset ≠ 0 ∨ whence ≠ 0) :
    r.seek offset whence = .error .valueError := by
  simp [DeltaReader.seek, h]

/-- **C08** a list with fewer than two streams is refused. -/
theorem C08_needs_delta (fuel : Nat) (read : σ → Int → σ × Res Bytes) (streams : List (σ × Nat))
    (h : streams.length < 2) : newDeltaReader fuel read streams = .error .assertionError := by
  unfold newDeltaReader
  match streams, h with
  | [], _ => rfl
  | [_], _ => rfl

/-- The announced sizes are trusted: this delta announces a target of 3 bytes but produces 1, and the
resolver returns stale memory (here a zero byte) instead of reporting the error.  The hypothesis
`Fits.tgt_size` of `C08_resolve` cannot be dropped. -/
theorem C08_target_size_trusted :
    (newDeltaReader 9 objRead [([2, 3, 1, 7], 4), ([65, 66], 2)]).map (fun r => (r.read 0).2) =
      .ok [7, 0, 0] := by decide +kernel

/-- Likewise the announced size of the source is not compared with the base. -/
theorem C08_source_size_trusted :
    (newDeltaReader 9 objRead [([9, 1, 1, 7], 4), ([65, 66], 2)]).map (fun r => (r.read 0).2) =
      .ok [7] := by decide +kernel

/-! A chain of two deltas that meets the hypotheses. -/

def exBase : Bytes := [65, 66, 67]
/-- insert `X`, then copy 2 bytes from offset 1 -/
def exD1 : DeltaObj := ⟨[3], [3], [.insert [88], .copy (some 1) none none none (some 2) none none]⟩
/-- copy 3 bytes, insert `Y` -/
def exD2 : DeltaObj := ⟨[0x83, 0], [4], [.copy none none none none (some 3) none none, .insert [89]]⟩
example : ChainFits exBase [exD1, exD2] := by
  refine ⟨?_, ?_, trivial⟩
  · refine ⟨⟨[], 3, rfl, by simp, by decide⟩, ⟨[], 3, rfl, by simp, by decide⟩, by decide, by decide,
      by decide, ?_⟩
    simp [exD1, exBase, Instr.Valid, copyOff, copySize, opVal]
  · refine ⟨⟨[0x83], 0, rfl, by simp; decide, by decide⟩, ⟨[], 4, rfl, by simp, by decide⟩, by decide, by decide,
      by decide, ?_⟩
    simp [exD1, exD2, exBase, Instr.Valid, copyOff, copySize, opVal, DeltaObj.run, runAll, Instr.run]
example : resolveChain exBase [exD1, exD2] = [88, 66, 67, 89] := by decide
example : (newDeltaReader 9 objRead [(exD2.bytes, exD2.bytes.length), (exD1.bytes, exD1.bytes.length),
    (exBase, 3)]).map (fun r => (r.read 3).2) = .ok [88, 66, 67] := by decide +kernel

end GitDB.Props
