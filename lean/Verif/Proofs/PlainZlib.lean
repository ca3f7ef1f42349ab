import Verif.Proofs.Paced
import Verif.Proofs.ToyZlib
/-!
# Streams of literal bytes in the example codec; used for counterexamples that need large objects
-/
set_option autoImplicit false

namespace GitDB
open Spec

/-- Bytes that stand for themselves. -/
def Plain (p : Bytes) : Prop := ∀ c ∈ p, c.toNat < 251

theorem toy_plain (p y : Bytes) (h : Plain p) : toy (p ++ y) = bump p.length p (toy y) := by
  induction p with
  | nil => simp [bump]
  | cons c p ih =>
    rw [List.cons_append, toy_lit c _ (h c List.mem_cons_self), ih (fun x hx => h x (List.mem_cons_of_mem _ hx))]
    simp only [bump, List.length_cons, List.cons_append, List.nil_append, Option.map_map]
    congr 2

theorem plain_take (p : Bytes) (n : Nat) (h : Plain p) : Plain (p.take n) :=
  fun c hc => h c (List.mem_of_mem_take hc)

theorem plain_isZip (p rest : Bytes) (h : Plain p) :
    IsZip toyZlib (p ++ 255 :: rest) (p.length + 1) p := by
  constructor
  · show (toy (p ++ 255 :: rest)).2.1 = _
    rw [toy_plain p _ h, toy_zero]
    simp [bump]; omega
  · show (toy (p ++ 255 :: rest)).1 = _
    rw [toy_plain p _ h, toy_zero]
    simp [bump]

theorem plain_out (p rest : Bytes) (h : Plain p) (n : Nat) :
    toyZlib.out ((p ++ 255 :: rest).take n) = p.take n := by
  show (toy ((p ++ 255 :: rest).take n)).1 = _
  rw [List.take_append]
  rcases Nat.lt_or_ge p.length n with hn | hn
  · rw [List.take_of_length_le (by omega), show n - p.length = (n - p.length - 1) + 1 by omega,
      List.take_succ_cons, toy_plain p _ h, toy_zero]
    simp [bump]
  · rw [show n - p.length = 0 by omega, List.take_zero, toy_plain _ _ (plain_take p n h), toy_nil]
    simp [bump]

theorem plain_noStall (p rest : Bytes) (h : Plain p) : NoStall toyZlib (p ++ 255 :: rest) := by
  intro n hn
  rw [plain_out p rest h] at hn ⊢
  rw [plain_out p rest h, (plain_isZip p rest h).out] at *
  rw [List.length_take] at *
  rw [List.length_take]
  omega

/-- What the compressor writes. -/
def toyEnc (d : Bytes) : Bytes := (d.flatMap fun b => [254, b]) ++ [255]

theorem toyEnc_length (d : Bytes) : (toyEnc d).length = 2 * d.length + 1 := by
  unfold toyEnc
  induction d with
  | nil => rfl
  | cons b d ih => simp only [List.flatMap_cons, List.length_append, List.length_cons, List.length_nil] at ih ⊢; omega

theorem toyEnc_out (d : Bytes) (n : Nat) : toyZlib.out ((toyEnc d).take n) = d.take (n / 2) := by
  show (toy ((toyEnc d).take n)).1 = _
  unfold toyEnc
  induction d generalizing n with
  | nil =>
    cases n with
    | zero => simp [toy]
    | succ n => simp [toy]
  | cons b d ih =>
    match n with
    | 0 => simp [toy]
    | 1 => simp [toy]
    | n + 2 =>
      simp only [List.flatMap_cons, List.cons_append, List.nil_append, List.take_succ_cons]
      rw [toy_esc, show (n + 2) / 2 = n / 2 + 1 by omega, List.take_succ_cons]
      simp only [bump]
      rw [ih n]
      rfl

theorem toyEnc_noStall (d : Bytes) : NoStall toyZlib (toyEnc d) := by
  intro n hn
  have h := toyEnc_out d (toyEnc d).length
  rw [List.take_of_length_le (Nat.le_refl _), toyEnc_length, List.take_of_length_le (by omega)] at h
  rw [h, toyEnc_out] at hn
  rw [toyEnc_out, toyEnc_out]
  rw [List.length_take] at *
  rw [List.length_take]
  omega

theorem plain_paced (p rest : Bytes) (h : Plain p) : Paced toyZlib (p ++ 255 :: rest) (p.length + 1) p where
  zip := plain_isZip p rest h
  noStall := plain_noStall p rest h
  clen_lt := by omega
  paced n _ hn := by rw [plain_out p rest h, List.length_take]; omega

theorem new_plain (ty ds data rest : Bytes) (hd : IsDecimal ds data.length)
    (ht : ∀ c ∈ ty, c ≠ 0x20 ∧ c ≠ 0) (h : Plain (ty ++ [0x20] ++ ds ++ [0] ++ data))
    (hh : (ty ++ [0x20] ++ ds ++ [0]).length ≤ maxHeader)
    (hlen : maxHeader ≤ (ty ++ [0x20] ++ ds ++ [0] ++ data).length) :
    Reader.new toyZlib (ty ++ [0x20] ++ ds ++ [0] ++ data ++ 255 :: rest) =
      .ok (ty, (data.length : Int),
        plainReader (ty ++ [0x20] ++ ds ++ [0] ++ data ++ 255 :: rest) data
          (ty ++ [0x20] ++ ds ++ [0]).length) :=
  new_paced toyZlib_laws ty ds data hd ht (plain_paced _ rest h) hh hlen

theorem read_plainReader (H data rest : Bytes) (h : Plain (H ++ data))
    (hh' : H.length ≤ maxHeader)
    (hlen : maxHeader + 8 < (H ++ data).length) (n : Int)
    (hw1 : ((plainReader (H ++ data ++ 255 :: rest) data H.length).want n) -
      ((maxHeader : Int) - H.length) ≤ 8200)
    (hw2 : 8 < ((plainReader (H ++ data ++ 255 :: rest) data H.length).want n) -
      ((maxHeader : Int) - H.length)) :
    ∃ r' d, (plainReader (H ++ data ++ 255 :: rest) data H.length).read toyZlib n = (r', .ok d) ∧
      let got : Int := (maxHeader : Int) - H.length + 8
      let left : Int := data.length - got
      let ask := ((plainReader (H ++ data ++ 255 :: rest) data H.length).want n) -
        ((maxHeader : Int) - H.length) - got
      (d.length : Int) = got + (if ask < 1 then left else min ask left) :=
  read_paced toyZlib_laws H data (plain_paced _ rest h) hh' hlen n hw1 hw2

end GitDB
