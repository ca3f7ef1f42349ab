import Verif.Model.Basic
/-!
# Specification of well behaved streams
-/
set_option autoImplicit false

namespace GitDB.Spec

variable {σ : Type}

/-- `Rep s rem`: the stream `s` still has to deliver `rem`.  The stream is well behaved if every bounded
read delivers as many bytes as possible. -/
structure BoundedReads (read : σ → Int → σ × Res Bytes) (Rep : σ → Bytes → Prop) : Prop where
  read_pos : ∀ s rem n, Rep s rem → 1 ≤ n →
    ∃ s', read s n = (s', .ok (rem.take n.toNat)) ∧ Rep s' (rem.drop n.toNat)

/-- The same only for reads of at least `k` bytes, or of everything. -/
structure BoundedReadsFrom (k : Nat) (read : σ → Int → σ × Res Bytes) (Rep : σ → Bytes → Prop) : Prop where
  read_pos : ∀ s rem n, Rep s rem → 1 ≤ n → (k : Int) ≤ n ∨ (rem.length : Int) ≤ n →
    ∃ s', read s n = (s', .ok (rem.take n.toNat)) ∧ Rep s' (rem.drop n.toNat)

/-- The same for streams of git objects. -/
structure ObjectReadsFrom (k : Nat) (read : σ → Int → σ × Res Bytes) (Rep : σ → Bytes → Prop) : Prop extends
    BoundedReadsFrom k read Rep where
  read_all : ∀ s rem n, Rep s rem → n ≤ 0 → ∃ s', read s n = (s', .ok rem) ∧ Rep s' []

theorem BoundedReads.above {read : σ → Int → σ × Res Bytes} {Rep : σ → Bytes → Prop} (h : BoundedReads read Rep) (k : Nat) :
    BoundedReadsFrom k read Rep := ⟨fun s rem n h1 h2 _ => h.read_pos s rem n h1 h2⟩

/-- Streams of git objects: in addition `read(n)` for `n ≤ 0` means "read everything". -/
structure ObjectReads (read : σ → Int → σ × Res Bytes) (Rep : σ → Bytes → Prop) : Prop extends
    BoundedReads read Rep where
  read_all : ∀ s rem n, Rep s rem → n ≤ 0 → ∃ s', read s n = (s', .ok rem) ∧ Rep s' []

theorem ObjectReads.above {read : σ → Int → σ × Res Bytes} {Rep : σ → Bytes → Prop} (h : ObjectReads read Rep) (k : Nat) :
    ObjectReadsFrom k read Rep := ⟨h.toBoundedReads.above k, h.read_all⟩

/-- Python file objects: `read(0)` reads nothing. -/
structure FileReads (read : σ → Int → σ × Res Bytes) (Rep : σ → Bytes → Prop) : Prop extends
    BoundedReads read Rep where
  read_zero : ∀ s rem, Rep s rem → ∃ s', read s 0 = (s', .ok []) ∧ Rep s' rem

end GitDB.Spec

namespace GitDB.Spec

variable {σ : Type}

/-- A sequence of read calls; the pieces returned, in order. -/
def readMany (read : σ → Int → σ × Res Bytes) : σ → List Int → σ × Res (List Bytes)
  | s, [] => (s, .ok [])
  | s, n :: ns =>
    match read s n with
    | (s, .error e) => (s, .error e)
    | (s, .ok d) =>
      match readMany read s ns with
      | (s, .error e) => (s, .error e)
      | (s, .ok ds) => (s, .ok (d :: ds))

/-- Number of bytes that the calls `ns` should deliver in total if `n` bytes are left. -/
def readLen : Nat → List Int → Nat
  | _, [] => 0
  | n, k :: ks => (if k < 1 then n else min k.toNat n) +
      readLen (n - (if k < 1 then n else min k.toNat n)) ks

end GitDB.Spec
