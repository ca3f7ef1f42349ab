import Verif.Spec.Lists
/-!
# Lemmas about lists
-/
set_option autoImplicit false

namespace GitDB
open Spec

variable {α β : Type} {R : α → β → Prop}

theorem all2_mem_right {l : List α} {m : List β} (h : All2 R l m) : ∀ b ∈ m, ∃ a ∈ l, R a b := by
  induction h with
  | nil => intro b hb; simp at hb
  | cons h1 _ ih =>
    intro b hb
    simp at hb
    rcases hb with rfl | hb
    · exact ⟨_, by simp, h1⟩
    · obtain ⟨a, ha, hab⟩ := ih b hb
      exact ⟨a, by simp [ha], hab⟩

theorem all2_mem_left {l : List α} {m : List β} (h : All2 R l m) : ∀ a ∈ l, ∃ b ∈ m, R a b := by
  induction h with
  | nil => intro b hb; simp at hb
  | cons h1 _ ih =>
    intro b hb
    simp at hb
    rcases hb with rfl | hb
    · exact ⟨_, by simp, h1⟩
    · obtain ⟨a, ha, hab⟩ := ih b hb
      exact ⟨a, by simp [ha], hab⟩

theorem all2_append {l l' : List α} {m m' : List β}
    (h : All2 R l m) (h' : All2 R l' m') : All2 R (l ++ l') (m ++ m') := by
  induction h with
  | nil => exact h'
  | cons h1 _ ih => exact .cons h1 ih

theorem all2_reverse {l : List α} {m : List β} (h : All2 R l m) : All2 R l.reverse m.reverse := by
  induction h with
  | nil => exact .nil
  | cons h1 _ ih =>
    rw [List.reverse_cons, List.reverse_cons]
    exact all2_append ih (.cons h1 .nil)

theorem all2_length {l : List α} {m : List β} (h : All2 R l m) : l.length = m.length := by
  induction h with
  | nil => rfl
  | cons _ _ ih => simp [ih]

theorem le_sum_of_mem {l : List Nat} {n : Nat} (h : n ∈ l) : n ≤ l.sum := by
  induction l with
  | nil => simp at h
  | cons a as ih =>
    simp at h
    rw [List.sum_cons]
    rcases h with rfl | h
    · omega
    · have := ih h; omega

end GitDB
