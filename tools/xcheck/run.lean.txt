import Verif.Model.Inflate
open GitDB GitDB.Deflate
def nibble (c : Char) : Nat := if c.isDigit then c.toNat - 48 else c.toNat - 87
def unhex : List Char → List UInt8
  | a :: b :: r => UInt8.ofNat (16 * nibble a + nibble b) :: unhex r
  | _ => []
def hexs (b : List UInt8) : String := if b.isEmpty then "-" else
  String.join (b.map fun c => let d := fun (n : Nat) => (if n < 10 then Char.ofNat (48+n) else Char.ofNat (87+n)).toString; d (c.toNat/16) ++ d (c.toNat%16))
def nocomp : Compressor := ⟨Unit, fun _ => (), fun _ _ => ((), []), fun _ => []⟩
def main (args : List String) : IO Unit := do
  let t ← IO.FS.readFile (args.headD "cases.txt")
  for l in t.splitOn "\n" do
    if l.isEmpty then continue
    let p := l.splitOn "|"
    let z := unhex (p[0]!).toList
    let mut dec : ZDec := {}
    let mut res : List String := []
    for o in (p[1]!).splitOn " " do
      if o.isEmpty then continue
      let q := (o.splitOn ",").map String.toNat!
      let w := (z.drop q[0]!).take q[1]!
      match ZDec.decompress (Deflate.zlib nocomp) dec w q[2]! with
      | (d, .error _) => dec := d; res := res ++ ["error"]
      | (d, .ok out) =>
        dec := d
        res := res ++ [s!"{hexs out} {d.tail.length} {d.unused.length} {if d.eof then 1 else 0}"]
    IO.println ("; ".intercalate res)
