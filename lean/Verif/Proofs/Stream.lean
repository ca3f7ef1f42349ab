import Verif.Spec.Stream
/-!
# Lemmas about well behaved streams
-/
set_option autoImplicit false

namespace GitDB
open Spec

variable {σ : Type}

/-- Any sequence of reads on a well behaved object stream yields the next bytes, in order. -/
theorem readMany_spec {read : σ → Int → σ × Res Bytes} {Rep : σ → Bytes → Prop}
    (hr : ObjectReads read Rep) : ∀ (ns : List Int) (s : σ) (rem : Bytes), Rep s rem →
    ∃ s' ps, readMany read s ns = (s', .ok ps) ∧ ps.flatten = rem.take (readLen rem.length ns) ∧
      Rep s' (rem.drop (readLen rem.length ns)) := by
  intro ns
  induction ns with
  | nil => intro s rem h; exact ⟨s, [], rfl, by simp [readLen], by simpa [readLen] using h⟩
  | cons n ns ih =>
    intro s rem h
    have step : ∃ (m : Nat) (s1 : σ), m = (if n < 1 then rem.length else min n.toNat rem.length) ∧
        read s n = (s1, .ok (rem.take m)) ∧ Rep s1 (rem.drop m) := by
      by_cases hn : n < 1
      · obtain ⟨s1, e, r⟩ := hr.read_all s rem n h (by omega)
        refine ⟨rem.length, s1, by rw [if_pos hn], by rw [e]; simp, by simpa using r⟩
      · obtain ⟨s1, e, r⟩ := hr.read_pos s rem n h (by omega)
        refine ⟨min n.toNat rem.length, s1, by rw [if_neg hn], ?_, ?_⟩
        · rw [e]
          by_cases hh : rem.length ≤ n.toNat
          · rw [List.take_of_length_le hh, List.take_of_length_le (by omega)]
          · rw [Nat.min_eq_left (by omega)]
        · by_cases hh : rem.length ≤ n.toNat
          · rw [List.drop_eq_nil_of_le hh] at r
            rw [List.drop_eq_nil_of_le (by omega)]; exact r
          · rw [Nat.min_eq_left (by omega)]; exact r
    obtain ⟨m, s1, em, e, r⟩ := step
    obtain ⟨s', ps, e2, h2, r2⟩ := ih s1 (rem.drop m) r
    have hm : m ≤ rem.length := by rw [em]; split <;> omega
    have hl : readLen rem.length (n :: ns) = m + readLen (rem.drop m).length ns := by
      rw [readLen, ← em, List.length_drop]
    refine ⟨s', rem.take m :: ps, ?_, ?_, ?_⟩
    · simp only [readMany, e, e2]
    · rw [List.flatten_cons, h2, hl, List.take_add]
    · rw [hl, ← List.drop_drop]; exact r2

end GitDB
