import Verif.Model.Basic
/-!
# The loose object header `<type> SP <size> NUL`

`gitdb/fun.py` 403-412 and 481-485, `gitdb/stream.py` 94-119.
-/
set_option autoImplicit false

namespace GitDB

/-- Decimal digits; the first argument bounds their number. -/
def natToDecAux : Nat → Nat → Bytes
  | 0, _ => []
  | f + 1, n =>
    if n < 10 then [UInt8.ofNat (48 + n)] else natToDecAux f (n / 10) ++ [UInt8.ofNat (48 + n % 10)]

/-- Decimal digits of a number as printed by `%i`. -/
def natToDec (n : Nat) : Bytes := natToDecAux (n + 1) n

theorem natToDecAux_enough : ∀ (f g n : Nat), n < f → n < g → natToDecAux f n = natToDecAux g n
  | 0, _, _, h, _ => absurd h (by omega)
  | _ + 1, 0, _, _, h => absurd h (by omega)
  | f + 1, g + 1, n, h1, h2 => by
    unfold natToDecAux
    by_cases h : n < 10
    · rw [if_pos h, if_pos h]
    · rw [if_neg h, if_neg h, natToDecAux_enough f g (n / 10) (by omega) (by omega)]

theorem natToDec_eq (n : Nat) : natToDec n =
    if n < 10 then [UInt8.ofNat (48 + n)] else natToDec (n / 10) ++ [UInt8.ofNat (48 + n % 10)] := by
  unfold natToDec
  rw [natToDecAux]
  by_cases h : n < 10
  · rw [if_pos h, if_pos h]
  · rw [if_neg h, if_neg h, natToDecAux_enough n (n / 10 + 1) (n / 10) (by omega) (by omega)]

/-- `loose_object_header(type, size)`, `gitdb/fun.py` 481-485:
`('%s %i\0' % (force_text(type), size)).encode('ascii')`.
A type with a byte `≥ 0x80` fails either in `decode('utf-8')` or in `encode('ascii')`; both errors are
`UnicodeError`s.  Simplification: the size is not negative. -/
def looseObjectHeader (type : Bytes) (size : Nat) : Res Bytes :=
  if type.all (fun b => b.toNat < 128) then
    .ok (type ++ [0x20] ++ natToDec size ++ [0])
  else
    .error .unicodeError

/-- `bytes.split(b' ')`: always a non-empty list of pieces. -/
def pySplitSpace : Bytes → List Bytes
  | [] => [[]]
  | c :: cs =>
    if c = 0x20 then [] :: pySplitSpace cs
    else
      match pySplitSpace cs with
      | [] => [[c]]
      | p :: ps => (c :: p) :: ps

/-- Python whitespace as skipped by `int()`. -/
def isPySpace (c : UInt8) : Bool := c = 0x20 || (9 ≤ c.toNat && c.toNat ≤ 13)

/-- The digit part of `int(b)`: decimal digits with single underscores between digits.  `prev` tells
whether the previous character was a digit. -/
def pyIntDigits : Bool → Nat → Bytes → Option Nat
  | prev, acc, [] => if prev then some acc else none
  | prev, acc, c :: cs =>
    if 48 ≤ c.toNat ∧ c.toNat ≤ 57 then pyIntDigits true (acc * 10 + (c.toNat - 48)) cs
    else if c = 0x5f ∧ prev = true then pyIntDigits false acc cs
    else none

/-- `int(b)` for `bytes` `b`: optional white space around an optionally signed decimal number.
(Python's limit of 4300 digits is not modelled.) -/
def pyInt (b : Bytes) : Res Int :=
  let b := ((b.dropWhile isPySpace).reverse.dropWhile isPySpace).reverse
  let r : Option Int := match b with
    | [] => none
    | c :: cs =>
      if c = 0x2d then (pyIntDigits false 0 cs).map fun n => -(n : Int)
      else if c = 0x2b then (pyIntDigits false 0 cs).map fun n => (n : Int)
      else (pyIntDigits false 0 (c :: cs)).map fun n => (n : Int)
  match r with
  | some v => .ok v
  | none => .error .valueError

/-- The parsing done by `loose_object_header_info` (`gitdb/fun.py` 410-412) and by
`_parse_header_info` (`gitdb/stream.py` 105-107, 113) on the first decompressed bytes: type, size and
the position after the header.  `find` returns -1 without a NUL, then `hdr[:-1]` is parsed and the
position is `-1 + 1 = 0`.  Unpacking into two names fails with `ValueError` unless there are exactly
two pieces. -/
def parseObjectHeader (hdr : Bytes) : Res (Bytes × Int × Nat) :=
  let (text, stop) :=
    match hdr.findIdx? (· == 0) with
    | some i => (hdr.take i, i + 1)
    | none => (hdr.take (hdr.length - 1), 0)
  match pySplitSpace text with
  | [typ, size] =>
    match pyInt size with
    | .ok n => .ok (typ, n, stop)
    | .error e => .error e
  | _ => .error .valueError

end GitDB
