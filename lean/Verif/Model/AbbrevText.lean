import Verif.Model.Text
import Verif.Model.LiveComplete
/-!
# Abbreviations given as `str` or `bytes`, and file names that are not ASCII

`Model/Compound.lean` and `Model/LiveComplete.lean` take an abbreviation as a list of bytes; `Model/Loose.lean` takes names of files
as bytes.  Here the conversions are as in the code.
-/
set_option autoImplicit false

namespace GitDB

variable {ω σ τ α : Type}

/-- `binascii.a2b_hex` of a text given as the list of its code points: `ValueError` ("string argument should contain only ASCII
characters") before anything else is looked at. -/
def hexToBinCodes (s : List Nat) : Res Bytes :=
  if s.all (· < 128) then hexToBin (s.map UInt8.ofNat) else .error .valueError

/-- `hex_to_bin(s)` of a `str`, `gitdb/util.py` 46. -/
def hexToBinStr (s : List Char) : Res Bytes := hexToBinCodes (s.map Char.toNat)

/-- `partial_to_complete_sha_hex(partial)`, `gitdb/db/base.py` 248-276, for `str` and `bytes`, around the loop over the databases `run`.
`run` gets the abbreviation encoded: a `LooseObjectDB` gets the text and encodes it (`gitdb/db/loose.py` 115), a `PackedDB` gets the
binary form. -/
def completeText (run : Bytes → τ → τ × Res (Option Bytes)) (t : τ) (arg : PyText) : τ × Res Bytes :=
  match forceText arg with
  | .error e => (t, .error e)
  | .ok s =>
    match hexToBinStr (if s.length % 2 ≠ 0 then s ++ ['0'] else s) with
    | .error e => (t, .error e)
    | .ok _ =>
      match run (utf8 s) t with
      | (t, .error e) => (t, .error e)
      | (t, .ok none) | (t, .ok (some [])) => (t, .error .badObject)
      | (t, .ok (some full)) => (t, .ok full)

/-- `partial_to_complete_sha_hex(partial)` of nested compound databases, `gitdb/db/base.py` 241-276. -/
def nestCompleteText (O : DbOps ω σ α) (w : ω) (n : Nat) (t : Nest σ n) (arg : PyText) : Nest σ n × Res Bytes :=
  completeText (fun part t => let r := completeDbs O w part (databasesRecursive n t) none; ((putBack n t r.1).1, r.2)) t arg

/-- `partial_to_complete_sha_hex(partial)` of a `GitDB`, `gitdb/db/base.py` 241-276. -/
def liveCompleteText (order : List Text → List Text) (L : DbOps Disk GitLeaf α) (n : Nat) (D : Disk) (t : GitNode n) (arg : PyText) :
    GitNode n × Res Bytes :=
  match liveCollect order n D t with
  | (t, .error e) => (t, .error e)
  | (t, .ok leaves) =>
    completeText (fun part t => let r := completeDbs L D part leaves none; ((livePut n t r.1).1, r.2)) t arg

/-- The inner loop of `sha_iter()`, `gitdb/db/loose.py` 260-263, names as code points. -/
def shaIterCodes (base : List Nat) : List (List Nat) → List (Res Bytes)
  | [] => []
  | f :: fs => if f.length ≠ 38 then shaIterCodes base fs else hexToBinCodes (base ++ f) :: shaIterCodes base fs

/-- `sha_iter()`, `gitdb/db/loose.py` 253-265: `os.walk` of a `str` gives `str`s, the names decoded with `os.fsdecode` (`decode`, code
points, lone surrogates for what cannot be decoded). -/
def shaIterText (decode : Bytes → List Nat) (walk : List (Bytes × List Bytes)) : List (Res Bytes) :=
  walk.flatMap fun d => if (decode d.1).length ≠ 2 then [] else shaIterCodes (decode d.1) (d.2.map decode)

end GitDB
