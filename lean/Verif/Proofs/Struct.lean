import Verif.Model.Struct
import Verif.Spec.Index
/-!
# Lemmas about big endian numbers and blocks of equal size
-/
set_option autoImplicit false

namespace GitDB
open Spec

theorem beVal_append (a b : Bytes) : beVal (a ++ b) = beVal a * 256 ^ b.length + beVal b := by
  unfold beVal
  rw [List.foldl_append]
  generalize a.foldl (fun a x => a * 256 + x.toNat) 0 = v
  suffices h : ∀ (b : Bytes) (v : Nat), b.foldl (fun a x => a * 256 + x.toNat) v =
      v * 256 ^ b.length + b.foldl (fun a x => a * 256 + x.toNat) 0 from h b v
  intro b
  induction b with
  | nil => intro v; simp
  | cons x b ih =>
    intro v
    simp only [List.foldl_cons, List.length_cons]
    rw [ih (v * 256 + x.toNat), ih (0 * 256 + x.toNat), Nat.pow_succ]
    have : (v * 256 + x.toNat) * 256 ^ b.length =
      v * (256 ^ b.length * 256) + (0 * 256 + x.toNat) * 256 ^ b.length := by
      rw [Nat.add_mul, Nat.zero_mul, Nat.zero_add, Nat.mul_assoc, Nat.mul_comm 256]
    omega

theorem beBytes_length : ∀ k n, (beBytes k n).length = k
  | 0, _ => rfl
  | k + 1, n => by simp [beBytes, beBytes_length k]

theorem beVal_beBytes : ∀ k n, beVal (beBytes k n) = n % 256 ^ k
  | 0, n => by simp [beBytes, beVal, Nat.mod_one]
  | k + 1, n => by
    rw [beBytes, beVal_append, beVal_beBytes k]
    have h : beVal [UInt8.ofNat (n % 256)] = n % 256 := by
      simp [beVal]
    rw [h]
    simp only [List.length_singleton, Nat.pow_succ]
    rw [Nat.mul_comm (256 ^ k) 256, Nat.mod_mul]
    omega

theorem beBytes4_eq (n : Nat) : beBytes 4 n = u32 n := by
  simp only [beBytes, u32, List.nil_append, List.cons_append, Nat.div_div_eq_div_mul]
  refine congr (congrArg _ ?_) (congr (congrArg _ ?_) (congr (congrArg _ ?_) (congr (congrArg _ ?_) rfl))) <;>
    (apply UInt8.toNat.inj; simp)

theorem u32_length (n : Nat) : (u32 n).length = 4 := rfl

theorem u64_length (n : Nat) : (u64 n).length = 8 := rfl

theorem beBytes8_eq (n : Nat) : beBytes 8 n = u64 n := by
  have h : beBytes 8 n = beBytes 4 (n / 2 ^ 32) ++ beBytes 4 n := by
    simp only [beBytes, List.nil_append, List.cons_append, Nat.div_div_eq_div_mul]
  rw [h, u64, beBytes4_eq, beBytes4_eq]
  congr 1
  simp only [u32]
  refine congr (congrArg _ ?_) (congr (congrArg _ ?_) (congr (congrArg _ ?_) (congr (congrArg _ ?_) rfl))) <;>
    (apply UInt8.toNat.inj; simp <;> omega)

theorem beVal_u32 (n : Nat) (h : n < 2 ^ 32) : beVal (u32 n) = n := by
  rw [← beBytes4_eq, beVal_beBytes]; omega

theorem beVal_u64 (n : Nat) (h : n < 2 ^ 64) : beVal (u64 n) = n := by
  rw [← beBytes8_eq, beVal_beBytes]; omega

/-- Addressing a block in a concatenation of blocks of equal size. -/
theorem flatMap_slice {α : Type} (f : α → Bytes) (k : Nat) : ∀ (l : List α),
    (∀ a ∈ l, (f a).length = k) → ∀ (i : Nat) (h : i < l.length) (post : Bytes),
    ((l.flatMap f ++ post).drop (i * k)).take k = f l[i]
  | [], _, i, h, _ => absurd h (by simp)
  | a :: l, hl, i, h, post => by
    have ha := hl a (by simp)
    rw [List.flatMap_cons]
    cases i with
    | zero =>
      rw [Nat.zero_mul, List.drop_zero, List.append_assoc, ← ha, List.take_left]; rfl
    | succ i =>
      rw [Nat.add_mul, Nat.one_mul, Nat.add_comm, ← List.drop_drop, List.append_assoc]
      conv => lhs; arg 2; arg 2; rw [← ha, List.drop_left]
      rw [flatMap_slice f k l (fun b hb => hl b (by simp [hb])) i (by simpa using h) post]
      rfl

theorem flatMap_length_const {α : Type} (f : α → Bytes) (k : Nat) (l : List α)
    (hl : ∀ a ∈ l, (f a).length = k) : (l.flatMap f).length = l.length * k := by
  induction l with
  | nil => simp
  | cons a l ih =>
    rw [List.flatMap_cons, List.length_append, hl a (by simp), ih (fun b hb => hl b (by simp [hb])),
      List.length_cons, Nat.add_mul]
    omega

theorem pySlice_block {α : Type} (f : α → Bytes) (k : Nat) (l : List α)
    (hl : ∀ a ∈ l, (f a).length = k) (i : Nat) (h : i < l.length) (pre post : Bytes) (off : Nat)
    (ho : off = pre.length) :
    pySlice (pre ++ l.flatMap f ++ post) (off + i * k) (off + i * k + k) = f l[i] := by
  unfold pySlice
  rw [Nat.add_sub_cancel_left, ← List.drop_drop, List.append_assoc, ho, List.drop_left,
    flatMap_slice f k l hl i h post]

theorem block_bound {α : Type} (f : α → Bytes) (k : Nat) (l : List α)
    (hl : ∀ a ∈ l, (f a).length = k) (i : Nat) (h : i < l.length) (pre post : Bytes) (off : Nat)
    (ho : off = pre.length) : off + i * k + k ≤ (pre ++ l.flatMap f ++ post).length := by
  rw [List.length_append, List.length_append, flatMap_length_const f k l hl, ho]
  have : (i + 1) * k ≤ l.length * k := Nat.mul_le_mul_right k h
  rw [Nat.add_mul, Nat.one_mul] at this
  omega

theorem unpackL_block {α : Type} (f : α → Nat) (l : List α) (hl : ∀ a ∈ l, f a < 2 ^ 32)
    (i : Nat) (h : i < l.length) (pre post : Bytes) (off : Nat) (ho : off = pre.length) :
    unpackL (pre ++ l.flatMap (fun a => u32 (f a)) ++ post) (off + i * 4) = .ok (f l[i]) := by
  unfold unpackL
  rw [if_pos (block_bound _ 4 l (fun _ _ => rfl) i h pre post off ho),
    pySlice_block _ 4 l (fun _ _ => rfl) i h pre post off ho, beVal_u32 _ (hl _ (List.getElem_mem h))]

theorem unpackQ_block {α : Type} (f : α → Nat) (l : List α) (hl : ∀ a ∈ l, f a < 2 ^ 64)
    (i : Nat) (h : i < l.length) (pre post : Bytes) (off : Nat) (ho : off = pre.length) :
    unpackQ (pre ++ l.flatMap (fun a => u64 (f a)) ++ post) (off + i * 8) = .ok (f l[i]) := by
  unfold unpackQ
  rw [if_pos (block_bound _ 8 l (fun _ _ => rfl) i h pre post off ho),
    pySlice_block _ 8 l (fun _ _ => rfl) i h pre post off ho, beVal_u64 _ (hl _ (List.getElem_mem h))]

theorem mapM_ok {α β : Type} (f : α → Res β) (g : α → β) : ∀ (l : List α),
    (∀ a ∈ l, f a = .ok (g a)) → l.mapM f = .ok (l.map g)
  | [], _ => rfl
  | a :: l, h => by
    rw [List.mapM_cons, h a (by simp), mapM_ok f g l (fun b hb => h b (by simp [hb]))]
    rfl

end GitDB
