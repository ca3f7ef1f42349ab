import Verif.Model.Writers
/-!
# `hashlib.sha1`

`make_sha` (`gitdb/util.py` 134-143) returns `hashlib.sha1(source)`; `Sha1Writer` (`gitdb/stream.py` 556-586) and `IndexWriter.write`
(`gitdb/pack.py` 191-245) update it piece by piece.  The rest of the model takes the function from bytes to digests as a parameter
(`Hash`).  Here the object is written out as in CPython's `Modules/sha1module.c` (up to 3.11, after LibTomCrypt): five words, a
buffer for an incomplete block and the number of bits processed.
-/
set_option autoImplicit false

namespace GitDB

/-- The five words of the state. -/
structure ShaWords where
  a : Nat
  b : Nat
  c : Nat
  d : Nat
  e : Nat
  deriving DecidableEq, Repr

/-- `ROLc` on 32-bit words. -/
def rolc (x n : Nat) : Nat := ((x <<< n) ||| (x >>> (32 - n))) % 2 ^ 32

/-- `STORE32H`. -/
def store32 (v : Nat) : Bytes := [UInt8.ofNat (v / 2 ^ 24), UInt8.ofNat (v / 2 ^ 16), UInt8.ofNat (v / 2 ^ 8), UInt8.ofNat v]

/-- `LOAD32H` of every four bytes, in reverse. -/
def load32s : Bytes → List Nat → List Nat
  | b0 :: b1 :: b2 :: b3 :: rest, acc =>
    load32s rest ((b0.toNat * 2 ^ 24 + b1.toNat * 2 ^ 16 + b2.toNat * 2 ^ 8 + b3.toNat) :: acc)
  | _, acc => acc

/-- The expansion of the block: `n` further words; the list is in reverse. -/
def shaExpand : Nat → List Nat → List Nat
  | 0, ws => ws
  | n + 1, ws => shaExpand n (rolc (ws.getD 2 0 ^^^ ws.getD 7 0 ^^^ ws.getD 13 0 ^^^ ws.getD 15 0) 1 :: ws)

/-- One round with the value of the function and the constant. -/
def shaRound (s : ShaWords) (fv k w : Nat) : ShaWords := ⟨(rolc s.a 5 + fv + s.e + w + k) % 2 ^ 32, s.a, rolc s.b 30, s.c, s.d⟩

/-- Rounds, from round `i` on: `F0` … `F3` of LibTomCrypt. -/
def shaRounds : Nat → List Nat → ShaWords → ShaWords
  | _, [], s => s
  | i, w :: ws, s =>
    shaRounds (i + 1) ws <|
      if i < 20 then shaRound s (s.d ^^^ (s.b &&& (s.c ^^^ s.d))) 0x5a827999 w
      else if i < 40 then shaRound s (s.b ^^^ s.c ^^^ s.d) 0x6ed9eba1 w
      else if i < 60 then shaRound s ((s.b &&& s.c) ||| (s.d &&& (s.b ||| s.c))) 0x8f1bbcdc w
      else shaRound s (s.b ^^^ s.c ^^^ s.d) 0xca62c1d6 w

/-- `sha1_compress`. -/
def shaCompress (s : ShaWords) (block : Bytes) : ShaWords :=
  let r := shaRounds 0 (shaExpand 64 (load32s block [])).reverse s
  ⟨(s.a + r.a) % 2 ^ 32, (s.b + r.b) % 2 ^ 32, (s.c + r.c) % 2 ^ 32, (s.d + r.d) % 2 ^ 32, (s.e + r.e) % 2 ^ 32⟩

/-- The object: `length`, `state`, and `buf` with its `curlen` bytes. -/
structure Sha where
  state : ShaWords := ⟨0x67452301, 0xefcdab89, 0x98badcfe, 0x10325476, 0xc3d2e1f0⟩
  buf : Bytes := []
  bits : Nat := 0
  deriving DecidableEq, Repr

/-- The loop of `sha1_process`; it runs at most once per byte. -/
def Sha.process : Nat → Sha → Bytes → Sha
  | 0, s, _ => s
  | fuel + 1, s, d =>
    if d = [] then s
    else if s.buf = [] ∧ 64 ≤ d.length then
      Sha.process fuel { s with state := shaCompress s.state (d.take 64), bits := (s.bits + 512) % 2 ^ 64 } (d.drop 64)
    else
      let n := min d.length (64 - s.buf.length)
      let buf := s.buf ++ d.take n
      if buf.length = 64 then
        Sha.process fuel { state := shaCompress s.state buf, buf := [], bits := (s.bits + 512) % 2 ^ 64 } (d.drop n)
      else Sha.process fuel { s with buf := buf } (d.drop n)

/-- `update(data)`. -/
def Sha.update (s : Sha) (d : Bytes) : Sha := Sha.process d.length s d

/-- `digest()`: `sha1_done` on a copy. -/
def Sha.digest (s : Sha) : Bytes :=
  let bits := (s.bits + 8 * s.buf.length) % 2 ^ 64
  let buf := s.buf ++ [0x80]
  let len := store32 (bits / 2 ^ 32) ++ store32 bits
  let st :=
    if 56 < buf.length then
      shaCompress (shaCompress s.state (buf ++ List.replicate (64 - buf.length) 0)) (List.replicate 56 0 ++ len)
    else shaCompress s.state (buf ++ List.replicate (56 - buf.length) 0 ++ len)
  store32 st.a ++ store32 st.b ++ store32 st.c ++ store32 st.d ++ store32 st.e

/-- `make_sha(source).digest()`, `gitdb/util.py` 134-143. -/
def sha1 : Hash where
  digest := fun x => (Sha.update {} x).digest
  len := fun _ => rfl

end GitDB
