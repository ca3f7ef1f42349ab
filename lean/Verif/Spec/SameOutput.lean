import Verif.Model.Basic
/-!
# Streams and writers that cannot be told apart
-/
set_option autoImplicit false

namespace GitDB.Spec

/-- `read(n)` gives the same on both streams, data or exception, now and after any reads before it; asked only for
the `n` with `P n`. -/
def SameReads {σ₁ σ₂ : Type} (P : Int → Prop) (read₁ : σ₁ → Int → σ₁ × Res Bytes) (read₂ : σ₂ → Int → σ₂ × Res Bytes)
    (R : σ₁ → σ₂ → Prop) : Prop :=
  ∀ a b n, R a b → P n → (read₁ a n).2 = (read₂ b n).2 ∧ R (read₁ a n).1 (read₂ b n).1

/-- Neither raises, or both the same exception. -/
inductive SameOutcome {ρ₁ ρ₂ : Type} : Res ρ₁ → Res ρ₂ → Prop
  | ok (a : ρ₁) (b : ρ₂) : SameOutcome (.ok a) (.ok b)
  | error (e : Err) : SameOutcome (.error e) (.error e)

/-- A write fails for both writers or for neither. -/
def SameWrites {ω₁ ω₂ ρ₁ ρ₂ : Type} (write₁ : ω₁ → Bytes → ω₁ × Res ρ₁) (write₂ : ω₂ → Bytes → ω₂ × Res ρ₂)
    (W : ω₁ → ω₂ → Prop) : Prop :=
  ∀ a b d, W a b → SameOutcome (write₁ a d).2 (write₂ b d).2 ∧ W (write₁ a d).1 (write₂ b d).1

/-- The entries with one name, in their order. -/
def withName {α : Type} (name : α → Bytes) (x : Bytes) (l : List α) : List α := l.filter fun o => name o = x

end GitDB.Spec
