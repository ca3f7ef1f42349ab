import Verif.Model.Names
/-!
# Messages of the exceptions: `gitdb/exc.py` 28-42

Python 3.  Values are `str` or `bytes`; the `%s` of a `bytes` object is its `repr`.
-/
set_option autoImplicit false

namespace GitDB

/-- A Python `str` or `bytes` object.  (Lone surrogates cannot be represented.) -/
inductive PyText where
  | str (s : List Char)
  | bytes (b : Bytes)
  deriving DecidableEq, Repr

/-- `len(x)`. -/
def PyText.len : PyText → Nat
  | .str s => s.length
  | .bytes b => b.length

/-- `to_hex_sha`, `gitdb/util.py` 219-223, for both types: `binascii.b2a_hex` does not accept `str`. -/
def toHexShaText (sha : PyText) : Res PyText :=
  if sha.len = 40 then .ok sha
  else match sha with
    | .bytes b => .ok (.bytes (binToHex b))
    | .str _ => .error .typeError

/-- The character with this code. -/
def asciiChar (c : UInt8) : Char := Char.ofNat c.toNat

/-- One byte in `repr(bytes)` (CPython's `PyBytes_Repr`). -/
def escapeByte (quote c : UInt8) : List Char :=
  if c = quote ∨ c = 0x5c then ['\\', asciiChar c]
  else if c = 0x09 then ['\\', 't']
  else if c = 0x0a then ['\\', 'n']
  else if c = 0x0d then ['\\', 'r']
  else if c.toNat < 0x20 ∨ 0x7f ≤ c.toNat then
    ['\\', 'x', asciiChar (hexDigit (c.toNat / 16)), asciiChar (hexDigit (c.toNat % 16))]
  else [asciiChar c]

/-- `repr(b)` of `bytes`: single quotes, unless there is a single quote and no double quote in it. -/
def reprBytes (b : Bytes) : List Char :=
  let quote : UInt8 := if 0x27 ∈ b ∧ 0x22 ∉ b then 0x22 else 0x27
  ['b', asciiChar quote] ++ b.flatMap (escapeByte quote) ++ [asciiChar quote]

/-- `"%s" % x`, that is `str(x)`. -/
def PyText.format : PyText → List Char
  | .str s => s
  | .bytes b => reprBytes b

/-- `BadObject.__str__`, `gitdb/exc.py` 32-33, for the given `args`; `self.args[0]` raises if there is none. -/
def badObjectStr (args : List PyText) : Res (List Char) :=
  match args with
  | [] => .error .indexError
  | sha :: _ => do
    let h ← toHexShaText sha
    return "BadObject: ".toList ++ h.format

/-- `BadName.__str__`, `gitdb/exc.py` 39-40. -/
def badNameStr (args : List PyText) : Res (List Char) :=
  match args with
  | [] => .error .indexError
  | x :: _ => .ok ("Ref '".toList ++ x.format ++ "' did not resolve to an object".toList)

end GitDB
