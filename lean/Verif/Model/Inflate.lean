import Verif.Model.Zlib
/-!
# The compressed format: zlib (RFC 1950) and DEFLATE (RFC 1951)

Objects are compressed with Python's `zlib` module (`gitdb/stream.py` 146-181, 226-297, `gitdb/fun.py` 404-439,
`gitdb/pack.py` 116-153).  The rest of the model takes the library as a parameter (`Zlib`, `ZlibLaws`).  Here the decompressor is
written out, bit by bit, in the order in which zlib's `inflate.c` consumes its input and notices errors: a machine whose states are
those of `inflate` (`HEAD`, `TYPE`, `STORED`, `COPY`, `TABLE`, `LENLENS`, `CODELENS`, `LEN`, `LENEXT`, `DIST`, `DISTEXT`, `CHECK`, …), with codes
decoded one bit at a time.  A match or literal counts as output as soon as its last bit has been seen.

Simplification: zlib notices a distance that points before the beginning of the output only when it has room for output; here it
is noticed at once.
-/
set_option autoImplicit false

namespace GitDB.Deflate

/-- A Huffman code (RFC 1951, 3.2.2): how many codes there are of length 1, 2, …, up to the longest, and the symbols in the order of
their codes. -/
structure Huff where
  counts : List Nat
  syms : List Nat
  deriving DecidableEq, Repr

/-- The code with these lengths of the codes of the symbols 0, 1, …; 0 for unused symbols. -/
def Huff.ofLengths (lens : List Nat) : Huff :=
  let longest := lens.foldl max 0
  let idx := lens.zipIdx
  { counts := (List.range longest).map fun i => lens.countP (· == i + 1)
    syms := (List.range longest).flatMap fun i => idx.filterMap fun p => if p.1 = i + 1 then some p.2 else none }

/-- How many codes of the greatest length are left; `none` if there are more codes than possible (`inflate_table` in `inftrees.c`). -/
def kraft : List Nat → Nat → Option Nat
  | [], left => some left
  | c :: cs, left => if 2 * left < c then none else kraft cs (2 * left - c)

/-- Codes must be complete, except that there may be none, and - not for the code lengths themselves - a single one of length one
(`inflate_table` in `inftrees.c`). -/
def Huff.ok (h : Huff) (single : Bool) : Bool :=
  match kraft h.counts 1 with
  | none => false
  | some left => left == 0 || h.counts.length == 0 || (single && h.counts.length == 1)

/-- The codes of the fixed blocks (RFC 1951, 3.2.6). -/
def fixedLit : Huff :=
  Huff.ofLengths (List.replicate 144 8 ++ List.replicate 112 9 ++ List.replicate 24 7 ++ List.replicate 8 8)
/-- The codes of the fixed blocks (RFC 1951, 3.2.6). -/
def fixedDist : Huff := Huff.ofLengths (List.replicate 32 5)

/-- Lengths: base and number of extra bits (RFC 1951, 3.2.5). -/
def lengthCodes : List (Nat × Nat) :=
  [(3, 0), (4, 0), (5, 0), (6, 0), (7, 0), (8, 0), (9, 0), (10, 0), (11, 1), (13, 1), (15, 1), (17, 1), (19, 2), (23, 2), (27, 2), (31, 2),
   (35, 3), (43, 3), (51, 3), (59, 3), (67, 4), (83, 4), (99, 4), (115, 4), (131, 5), (163, 5), (195, 5), (227, 5), (258, 0)]

/-- Distances: base and number of extra bits (RFC 1951, 3.2.5). -/
def distCodes : List (Nat × Nat) :=
  [(1, 0), (2, 0), (3, 0), (4, 0), (5, 1), (7, 1), (9, 2), (13, 2), (17, 3), (25, 3), (33, 4), (49, 4), (65, 5), (97, 5), (129, 6), (193, 6),
   (257, 7), (385, 7), (513, 8), (769, 8), (1025, 9), (1537, 9), (2049, 10), (3073, 10), (4097, 11), (6145, 11), (8193, 12), (12289, 12),
   (16385, 13), (24577, 13)]

/-- The order of the lengths of the codes for code lengths (RFC 1951, 3.2.7). -/
def lengthOrder : List Nat := [16, 17, 18, 0, 8, 7, 9, 6, 10, 5, 11, 4, 12, 3, 13, 2, 14, 1, 15]

/-- A block with compressed data: whether it is the last one, and its codes. -/
structure Codes where
  final : Bool
  lit : Huff
  dist : Huff
  deriving DecidableEq, Repr

/-- A block whose code lengths are being read: the last `rlens.length` of them are known, in reverse. -/
structure Dyn where
  final : Bool
  nlen : Nat
  ndist : Nat
  lens : Huff
  rlens : List Nat
  deriving DecidableEq, Repr

/-- What a number of bits is collected for. -/
inductive Want where
  | head | dictId | type
  | storedLen (final : Bool)
  | storedByte (final : Bool) (left : Nat)
  | table (final : Bool)
  | lenLens (final : Bool) (nlen ndist : Nat) (order : List Nat) (known : List (Nat × Nat))
  | repeatPrev (d : Dyn)
  | repeatZero (d : Dyn) (base : Nat)
  | lenExtra (c : Codes) (base : Nat)
  | distExtra (c : Codes) (len base : Nat)
  | check
  deriving DecidableEq, Repr

/-- What a symbol is decoded for. -/
inductive Sym where
  | codeLen (d : Dyn)
  | lit (c : Codes)
  | dist (c : Codes) (len : Nat)
  deriving DecidableEq, Repr

/-- The code used. -/
def Sym.huff : Sym → Huff
  | .codeLen d => d.lens
  | .lit c => c.lit
  | .dist c _ => c.dist

/-- The state of `inflate`. -/
inductive Mode where
  /-- `got` of `need` bits are there, with value `acc` -/
  | collect (want : Want) (need got acc : Nat)
  /-- `left` bits are skipped before `need` bits are collected -/
  | skip (left : Nat) (want : Want) (need : Nat)
  /-- bits of a code with value `code` have been seen; the first code of this length is `first`, its symbol the one at
  `index`; `counts` are the numbers of codes that are one, two, … bits longer -/
  | decode (sym : Sym) (counts : List Nat) (code first index : Nat)
  | done
  | bad
  deriving DecidableEq, Repr

/-- The decompressor: its output in reverse, and its state. -/
structure Inf where
  rout : Bytes := []
  mode : Mode := .collect .head 16 0 0
  deriving DecidableEq, Repr

/-- Begin to decode a symbol. -/
def startSym (sym : Sym) : Mode := .decode sym sym.huff.counts 0 0 0

/-- Collect bits from the next byte boundary on, after bit `i` of a byte. -/
def align (i : Nat) (want : Want) (need : Nat) : Mode :=
  if i = 7 then .collect want need 0 0 else .skip (7 - i) want need

/-- The end of a block, after bit `i` of a byte. -/
def endBlock (final : Bool) (i : Nat) : Mode :=
  if final then align i .check 32 else .collect .type 3 0 0

/-- The checksum of RFC 1950, 9. -/
def adler32 (data : Bytes) : Nat :=
  let r := data.foldl (fun (ab : Nat × Nat) c => let a := (ab.1 + c.toNat) % 65521; (a, (ab.2 + a) % 65521)) (1, 0)
  r.2 * 65536 + r.1

/-- A big-endian number read as a little-endian one, and the other way round. -/
def swap32 (v : Nat) : Nat :=
  (v % 256) * 16777216 + (v / 256 % 256) * 65536 + (v / 65536 % 256) * 256 + v / 16777216

/-- Copy `len` bytes from the output, `dist` bytes back. -/
def copyBack (dist : Nat) : Nat → Bytes → Bytes
  | 0, rout => rout
  | len + 1, rout => copyBack dist len (rout.getD (dist - 1) 0 :: rout)

/-- A length and a distance are known. -/
def doMatch (rout : Bytes) (c : Codes) (len dist : Nat) : Inf :=
  if dist > rout.length then ⟨rout, .bad⟩ else ⟨copyBack dist len rout, startSym (.lit c)⟩

/-- All code lengths of a block are known. -/
def doTable (d : Dyn) (rlens : List Nat) : Mode :=
  let lens := rlens.reverse
  if lens.getD 256 0 = 0 then .bad
  else
    let lit := Huff.ofLengths (lens.take d.nlen)
    let dist := Huff.ofLengths (lens.drop d.nlen)
    if lit.ok true ∧ dist.ok true then startSym (.lit ⟨d.final, lit, dist⟩) else .bad

/-- `n` further code lengths. -/
def doLens (d : Dyn) (n val : Nat) : Mode :=
  let have_ := d.rlens.length + n
  if have_ > d.nlen + d.ndist then .bad
  else if have_ = d.nlen + d.ndist then doTable d (List.replicate n val ++ d.rlens)
  else startSym (.codeLen { d with rlens := List.replicate n val ++ d.rlens })

/-- The bits that were wanted are there, with value `v`; the last one was bit `i` of a byte. -/
def collected (rout : Bytes) (i : Nat) (v : Nat) : Want → Inf
  | .head =>
    if (v % 256 * 256 + v / 256) % 31 ≠ 0 ∨ v % 16 ≠ 8 ∨ v % 256 / 16 > 7 then ⟨rout, .bad⟩
    else if v / 8192 % 2 = 1 then ⟨rout, .collect .dictId 32 0 0⟩
    else ⟨rout, .collect .type 3 0 0⟩
  | .dictId => ⟨rout, .bad⟩
  | .type =>
    let final := v % 2 == 1
    if v / 2 = 0 then ⟨rout, align i (.storedLen final) 32⟩
    else if v / 2 = 1 then ⟨rout, startSym (.lit ⟨final, fixedLit, fixedDist⟩)⟩
    else if v / 2 = 2 then ⟨rout, .collect (.table final) 14 0 0⟩
    else ⟨rout, .bad⟩
  | .storedLen final =>
    if v % 65536 + v / 65536 ≠ 65535 then ⟨rout, .bad⟩
    else if v % 65536 = 0 then ⟨rout, endBlock final i⟩
    else ⟨rout, .collect (.storedByte final (v % 65536)) 8 0 0⟩
  | .storedByte final left =>
    ⟨UInt8.ofNat v :: rout, if left ≤ 1 then endBlock final i else .collect (.storedByte final (left - 1)) 8 0 0⟩
  | .table final =>
    if v % 32 + 257 > 286 ∨ v / 32 % 32 + 1 > 30 then ⟨rout, .bad⟩
    else ⟨rout, .collect (.lenLens final (v % 32 + 257) (v / 32 % 32 + 1) (lengthOrder.take (v / 1024 + 4)) []) 3 0 0⟩
  | .lenLens final nlen ndist order known =>
    let known := (order.headD 0, v) :: known
    match order.tail with
    | [] =>
      let h := Huff.ofLengths ((List.range 19).map fun s => ((known.find? (·.1 == s)).map (·.2)).getD 0)
      ⟨rout, if h.ok false then startSym (.codeLen ⟨final, nlen, ndist, h, []⟩) else .bad⟩
    | order => ⟨rout, .collect (.lenLens final nlen ndist order known) 3 0 0⟩
  | .repeatPrev d =>
    match d.rlens with
    | [] => ⟨rout, .bad⟩
    | prev :: _ => ⟨rout, doLens d (3 + v) prev⟩
  | .repeatZero d base => ⟨rout, doLens d (base + v) 0⟩
  | .lenExtra c base => ⟨rout, startSym (.dist c (base + v))⟩
  | .distExtra c len base => doMatch rout c len (base + v)
  | .check => ⟨rout, if swap32 v = adler32 rout.reverse then .done else .bad⟩

/-- A symbol has been decoded; the last bit of its code was bit `i` of a byte. -/
def decoded (rout : Bytes) (i : Nat) (s : Nat) : Sym → Inf
  | .codeLen d =>
    if s < 16 then ⟨rout, doLens d 1 s⟩
    else if s = 16 then ⟨rout, .collect (.repeatPrev d) 2 0 0⟩
    else if s = 17 then ⟨rout, .collect (.repeatZero d 3) 3 0 0⟩
    else ⟨rout, .collect (.repeatZero d 11) 7 0 0⟩
  | .lit c =>
    if s < 256 then ⟨UInt8.ofNat s :: rout, startSym (.lit c)⟩
    else if s = 256 then ⟨rout, endBlock c.final i⟩
    else
      match lengthCodes[s - 257]? with
      | none => ⟨rout, .bad⟩
      | some (base, 0) => ⟨rout, startSym (.dist c base)⟩
      | some (base, extra + 1) => ⟨rout, .collect (.lenExtra c base) (extra + 1) 0 0⟩
  | .dist c len =>
    match distCodes[s]? with
    | none => ⟨rout, .bad⟩
    | some (base, 0) => doMatch rout c len base
    | some (base, extra + 1) => ⟨rout, .collect (.distExtra c len base) (extra + 1) 0 0⟩

/-- A bit that is no code: without any codes, the code lengths are taken for 0 (in zlib, the entry of an empty table has value 0 and length
1, and only the others look at the mark "invalid"). -/
def noCode (rout : Bytes) : Sym → Inf
  | .codeLen d => ⟨rout, doLens d 1 0⟩
  | _ => ⟨rout, .bad⟩

/-- One bit of input, bit `i` of a byte. -/
def bitStep (s : Inf) (i : Nat) (b : Bool) : Inf :=
  match s.mode with
  | .done => s
  | .bad => s
  | .skip left want need => { s with mode := if left ≤ 1 then .collect want need 0 0 else .skip (left - 1) want need }
  | .collect want need got acc =>
    let acc := acc + (if b then 2 ^ got else 0)
    if got + 1 = need then collected s.rout i acc want else { s with mode := .collect want need (got + 1) acc }
  | .decode sym [] _ _ _ => noCode s.rout sym
  | .decode sym (c :: counts) code first index =>
    let code := code + (if b then 1 else 0)
    if code < first + c then decoded s.rout i (sym.huff.syms.getD (index + (code - first)) 0) sym
    else if counts.isEmpty then { s with mode := .bad }
    else { s with mode := .decode sym counts (2 * code) (2 * (first + c)) (index + c) }

/-- Bits of a byte from bit `i` on. -/
def runBits (s : Inf) : Nat → List Bool → Inf
  | _, [] => s
  | i, b :: bs => runBits (bitStep s i b) (i + 1) bs

/-- The bits of a byte, in the order in which they are used (RFC 1951, 3.1.1). -/
def byteBits (b : UInt8) : List Bool :=
  [b.toNat.testBit 0, b.toNat.testBit 1, b.toNat.testBit 2, b.toNat.testBit 3, b.toNat.testBit 4, b.toNat.testBit 5,
   b.toNat.testBit 6, b.toNat.testBit 7]

/-- One byte of input. -/
def stepByte (s : Inf) (b : UInt8) : Inf := runBits s 0 (byteBits b)

/-- Several bytes of input. -/
def feed (s : Inf) (x : Bytes) : Inf := x.foldl stepByte s

/-- After how many further bytes the end is reached. -/
def stopFrom (s : Inf) : Bytes → Option Nat
  | [] => if s.mode = .done then some 0 else none
  | b :: x => if s.mode = .done then some 0 else (stopFrom (stepByte s b) x).map (· + 1)

/-- In a stored block with bytes to copy. -/
def Mode.copying : Mode → Bool
  | .collect (.storedByte _ _) _ _ _ => true
  | _ => false

/-- `inflate` stops here if it has room for `limit` bytes in all: it has something to output, or is in a stored block (where it
looks for room before it looks for input). -/
def Inf.full (s : Inf) (limit : Nat) : Bool :=
  limit < s.rout.length || (limit == s.rout.length && s.mode.copying)

/-- How many of the bytes are used until `inflate` stops for want of room. -/
def takenFrom (limit : Nat) (s : Inf) : Bytes → Nat
  | [] => 0
  | b :: x => if s.full limit then 0 else takenFrom limit (stepByte s b) x + 1

/-- A compressor: what `compressobj(level)`, `compress(data)` and `flush()` do. -/
structure Compressor where
  Comp : Type
  cinit : Int → Comp
  ccompress : Comp → Bytes → Comp × Bytes
  cflush : Comp → Bytes

/-- The library: this decompressor and some compressor. -/
def zlib (c : Compressor) : Zlib where
  out := fun x => (feed {} x).rout.reverse
  stop := stopFrom {}
  bad := fun x => (feed {} x).mode == .bad
  taken := fun fed w limit => takenFrom limit (feed {} fed) w
  Comp := c.Comp
  cinit := c.cinit
  ccompress := c.ccompress
  cflush := c.cflush

end GitDB.Deflate
