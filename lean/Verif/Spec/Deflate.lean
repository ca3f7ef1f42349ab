import Verif.Model.Basic
/-!
# The compressed format as described in RFC 1950 and RFC 1951

A description of valid streams by what writes them: for any way of dividing the content into blocks, literals and matches, and any codes.
Independent of the decompressor in `Verif/Model/Inflate.lean`.
-/
set_option autoImplicit false

namespace GitDB.Spec.Rfc

/-- The lowest `w` bits of a number, least significant first (RFC 1951, 3.1.1). -/
def lsb : Nat → Nat → List Bool
  | 0, _ => []
  | w + 1, n => (n % 2 == 1) :: lsb w (n / 2)

/-- Bytes as bits (RFC 1951, 3.1.1). -/
def bitsOf (x : Bytes) : List Bool := x.flatMap fun b => lsb 8 b.toNat

/-! ## Codes (RFC 1951, 3.2.2) -/

/-- The smallest code of a length, by the algorithm in 3.2.2, step 2; `lens` are the lengths of the codes of the symbols 0, 1, … -/
def firstCode (lens : List Nat) : Nat → Nat
  | 0 => 0
  | n + 1 => 2 * (firstCode lens n + if n = 0 then 0 else lens.count n)

/-- The symbol has a code. -/
def Coded (lens : List Nat) (s : Nat) : Prop := lens.getD s 0 ≠ 0

/-- The code of a symbol: codes of the same length are consecutive (3.2.2, step 3). -/
def codeValue (lens : List Nat) (s : Nat) : Nat :=
  firstCode lens (lens.getD s 0) + (lens.take s).count (lens.getD s 0)

/-- Codes are written from their most significant bit on (3.1.1). -/
def codeBits (lens : List Nat) (s : Nat) : List Bool := (lsb (lens.getD s 0) (codeValue lens s)).reverse

/-- Which part of all strings of `m` bits begins with one of the codes. -/
def covered (m : Nat) (lens : List Nat) : Nat := (lens.map fun l => if l = 0 then 0 else 2 ^ (m - l)).sum

/-- The code is complete: every string of `m` bits begins with exactly one code. -/
def Complete (lens : List Nat) : Prop := ∃ m, (∀ l ∈ lens, l ≤ m) ∧ covered m lens = 2 ^ m

/-- A code for distances or literals: complete, or without codes, or with one code of one bit (3.2.7: "If only one distance code is used"). -/
def Usable (lens : List Nat) : Prop :=
  Complete lens ∨ (∀ l ∈ lens, l = 0) ∨ ((∀ l ∈ lens, l ≤ 1) ∧ lens.count 1 = 1)

/-! ## Literals and matches (RFC 1951, 3.2.5) -/

inductive Token where
  | lit (b : UInt8)
  | copy (len dist : Nat)

/-- Lengths: symbol, number of extra bits, their value. -/
inductive LengthCode : Nat → Nat → Nat → Nat → Prop
  | short (k : Nat) : k < 8 → LengthCode (k + 3) (257 + k) 0 0
  | group (e j x : Nat) : 1 ≤ e → e ≤ 5 → j < 4 → x < 2 ^ e → LengthCode (3 + (4 + j) * 2 ^ e + x) (261 + 4 * e + j) e x
  | longest : LengthCode 258 285 0 0

/-- Distances: symbol, number of extra bits, their value. -/
inductive DistCode : Nat → Nat → Nat → Nat → Prop
  | near (k : Nat) : k < 2 → DistCode (k + 1) k 0 0
  | group (e j x : Nat) : e ≤ 13 → j < 2 → x < 2 ^ e → DistCode (1 + (2 + j) * 2 ^ e + x) (2 + 2 * e + j) e x

/-- The bits of a literal or match. -/
inductive TokenBits (lit dist : List Nat) : Token → List Bool → Prop
  | lit (b : UInt8) : Coded lit b.toNat → TokenBits lit dist (.lit b) (codeBits lit b.toNat)
  | copy (len d s e x s' e' x' : Nat) : LengthCode len s e x → DistCode d s' e' x' → Coded lit s → Coded dist s' →
      TokenBits lit dist (.copy len d) (codeBits lit s ++ lsb e x ++ (codeBits dist s' ++ lsb e' x'))

/-- The bits of several. -/
inductive TokensBits (lit dist : List Nat) : List Token → List Bool → Prop
  | nil : TokensBits lit dist [] []
  | cons (t : Token) (ts : List Token) (a b : List Bool) : TokenBits lit dist t a → TokensBits lit dist ts b →
      TokensBits lit dist (t :: ts) (a ++ b)

/-- What literals and matches stand for, after the output `out`: in a match, each byte is the one `d` bytes before it. -/
inductive Expands : Bytes → List Token → Bytes → Prop
  | nil (out : Bytes) : Expands out [] out
  | lit (out : Bytes) (b : UInt8) (ts : List Token) (out' : Bytes) : Expands (out ++ [b]) ts out' → Expands out (.lit b :: ts) out'
  | copy (out x : Bytes) (d : Nat) (ts : List Token) (out' : Bytes) : 1 ≤ d → d ≤ out.length →
      (∀ i, out.length ≤ i → i < (out ++ x).length → (out ++ x)[i]? = (out ++ x)[i - d]?) →
      Expands (out ++ x) ts out' → Expands out (.copy x.length d :: ts) out'

/-! ## Blocks (RFC 1951, 3.2.3 to 3.2.7) -/

/-- Lengths of the fixed codes for literals and lengths (3.2.6). -/
def fixedLitLens : List Nat :=
  (List.range 288).map fun s => if s ≤ 143 then 8 else if s ≤ 255 then 9 else if s ≤ 279 then 7 else 8

/-- Lengths of the fixed codes for distances (3.2.6). -/
def fixedDistLens : List Nat := List.replicate 32 5

/-- The order of the lengths of the codes for code lengths (3.2.7). -/
def order : List Nat := [16, 17, 18, 0, 8] ++ (List.range 7).flatMap fun j => [7 - j, 9 + j]

/-- How code lengths are written with the code `cl` (3.2.7), after the lengths `prev`. -/
inductive LensBits (cl : List Nat) : List Nat → List Nat → List Bool → Prop
  | nil (prev : List Nat) : LensBits cl prev [] []
  | one (prev : List Nat) (l : Nat) (rest : List Nat) (b : List Bool) : l ≤ 15 → Coded cl l → LensBits cl (prev ++ [l]) rest b →
      LensBits cl prev (l :: rest) (codeBits cl l ++ b)
  | again (prev : List Nat) (l n : Nat) (rest : List Nat) (b : List Bool) : 3 ≤ n → n ≤ 6 → prev.getLast? = some l → Coded cl 16 →
      LensBits cl (prev ++ List.replicate n l) rest b →
      LensBits cl prev (List.replicate n l ++ rest) (codeBits cl 16 ++ lsb 2 (n - 3) ++ b)
  | zeros (prev : List Nat) (n : Nat) (rest : List Nat) (b : List Bool) : 3 ≤ n → n ≤ 10 → Coded cl 17 →
      LensBits cl (prev ++ List.replicate n 0) rest b →
      LensBits cl prev (List.replicate n 0 ++ rest) (codeBits cl 17 ++ lsb 3 (n - 3) ++ b)
  | manyZeros (prev : List Nat) (n : Nat) (rest : List Nat) (b : List Bool) : 11 ≤ n → n ≤ 138 → Coded cl 18 →
      LensBits cl (prev ++ List.replicate n 0) rest b →
      LensBits cl prev (List.replicate n 0 ++ rest) (codeBits cl 18 ++ lsb 7 (n - 11) ++ b)

/-- The beginning of a block with codes of its own (3.2.7): `cl` are the lengths of the codes for code lengths, the first `k` of
which, in their order, are written. -/
inductive Header (lit dist : List Nat) : List Bool → Prop
  | mk (cl : List Nat) (k : Nat) (b : List Bool) : cl.length = 19 → (∀ l ∈ cl, l ≤ 7) → 4 ≤ k → k ≤ 19 →
      (∀ s ∈ order.drop k, cl.getD s 0 = 0) → Complete cl → LensBits cl [] (lit ++ dist) b →
      Header lit dist (lsb 5 (lit.length - 257) ++ lsb 5 (dist.length - 1) ++ lsb 4 (k - 4) ++
        ((order.take k).flatMap fun s => lsb 3 (cl.getD s 0)) ++ b)

/-- A block that begins at bit `pos`, after the output `out`. -/
inductive Block : Nat → Bool → Bytes → List Bool → Bytes → Prop
  | stored (pos : Nat) (final : Bool) (out data : Bytes) (pad : List Bool) : data.length ≤ 65535 → (pos + 3 + pad.length) % 8 = 0 →
      pad.length < 8 →
      Block pos final out ([final, false, false] ++ pad ++ lsb 16 data.length ++ lsb 16 (65535 - data.length) ++ bitsOf data) (out ++ data)
  | fixed (pos : Nat) (final : Bool) (out : Bytes) (ts : List Token) (b : List Bool) (out' : Bytes) :
      TokensBits fixedLitLens fixedDistLens ts b → Expands out ts out' →
      Block pos final out ([final, true, false] ++ b ++ codeBits fixedLitLens 256) out'
  | dynamic (pos : Nat) (final : Bool) (out : Bytes) (lit dist : List Nat) (h : List Bool) (ts : List Token) (b : List Bool) (out' : Bytes) :
      257 ≤ lit.length → lit.length ≤ 286 → 1 ≤ dist.length → dist.length ≤ 30 → Coded lit 256 → Usable lit → Usable dist →
      Header lit dist h → TokensBits lit dist ts b → Expands out ts out' →
      Block pos final out ([final, false, true] ++ h ++ b ++ codeBits lit 256) out'

/-- Blocks up to the last one. -/
inductive Blocks : Nat → Bytes → List Bool → Bytes → Prop
  | last (pos : Nat) (out : Bytes) (b : List Bool) (out' : Bytes) : Block pos true out b out' → Blocks pos out b out'
  | more (pos : Nat) (out : Bytes) (a : List Bool) (mid : Bytes) (b : List Bool) (out' : Bytes) : Block pos false out a mid →
      Blocks (pos + a.length) mid b out' → Blocks pos out (a ++ b) out'

/-! ## The frame (RFC 1950) -/

/-- The two sums of the checksum (RFC 1950, 2.2): `s1` is the sum of the bytes, plus one, and `s2` the sum of the values `s1` after each
byte. -/
def sum1 (data : Bytes) : Nat := (1 + (data.map UInt8.toNat).sum) % 65521
def sum2 (data : Bytes) : Nat := ((List.range data.length).map fun i => 1 + ((data.take (i + 1)).map UInt8.toNat).sum).sum % 65521

/-- A complete zlib stream. -/
inductive ZlibStream : Bytes → Bytes → Prop
  | mk (cmf flg : UInt8) (body : Bytes) (b pad : List Bool) (content : Bytes) (c0 c1 c2 c3 : UInt8) :
      cmf.toNat % 16 = 8 → cmf.toNat / 16 ≤ 7 → (cmf.toNat * 256 + flg.toNat) % 31 = 0 → flg.toNat / 32 % 2 = 0 →
      Blocks 0 [] b content → bitsOf body = b ++ pad → pad.length < 8 →
      c0.toNat * 256 + c1.toNat = sum2 content → c2.toNat * 256 + c3.toNat = sum1 content →
      ZlibStream ([cmf, flg] ++ body ++ [c0, c1, c2, c3]) content

end GitDB.Spec.Rfc
