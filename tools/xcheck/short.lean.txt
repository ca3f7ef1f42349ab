import Verif.Model.Inflate
import Verif.Model.Decomp
open GitDB GitDB.Deflate
def nibble (c : Char) : Nat := if c.isDigit then c.toNat - 48 else c.toNat - 87
def unhexA (acc : Array UInt8) : List Char → Array UInt8
  | a :: b :: r => unhexA (acc.push (UInt8.ofNat (16 * nibble a + nibble b))) r
  | _ => acc
def nocomp : Compressor := ⟨Unit, fun _ => (), fun _ _ => ((), []), fun _ => []⟩
def main (args : List String) : IO Unit := do
  let t ← IO.FS.readFile (args.headD "cases.txt")
  for l in t.splitOn "\n" do
    if l.isEmpty then continue
    let p := l.splitOn "|"
    let m := (unhexA #[] (p[1]!).toList).toList
    match Reader.new (Deflate.zlib nocomp) m with
    | .error _ => IO.println s!"{p[0]!} header error"
    | .ok (_, size, r) =>
      match r.read (Deflate.zlib nocomp) (-1) with
      | (_, .error _) => IO.println s!"{p[0]!} size {size} clen {m.length} read error"
      | (r', .ok d) =>
        IO.println s!"{p[0]!} size {size} clen {m.length} first buf {r.buflen} tail {r.zip.tail.length} read {d.length} tail {r'.zip.tail.length}"
