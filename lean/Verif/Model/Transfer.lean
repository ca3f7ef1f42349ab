import Verif.Model.Loose
import Verif.Model.Pack
/-!
# Handing an object of one database to another

The objects a database returns (`OStream`, `gitdb/base.py` 121-143, `ODeltaStream` 145-159) are what
`PackEntity.write_pack` takes, and what an `IStream` for `store` is made of.
-/
set_option autoImplicit false

namespace GitDB

/-- `LooseObjectDB.stream(sha)`, `gitdb/db/loose.py` 164-167, as the object returned.  Simplification: a negative
size in the header of the file is taken for 0. -/
def looseOStream (zl : Zlib) (fs : Fs) (noatime second : Bool) (sha : Bytes) : Res OStream :=
  match looseStream zl fs noatime second sha with
  | .error e => .error e
  | .ok (type, size, r) => .ok ⟨sha, .bytes type, some size.toNat, .base r⟩

/-- `IStream(o.type, o.size, o.stream)`, `gitdb/base.py` 202-217.  (Accessing `size` of an `ODeltaStream` resolves the
deltas; the stream keeps the result, which does not change what it returns.)  The type, `bytes` or `str`, is only used for the
header. -/
def OStream.toIStream (zl : Zlib) (fuel : Nat) (o : OStream) : Res (IStream PStream) :=
  match o.getSize zl fuel with
  | .error e => .error e
  | .ok size => .ok { type := o.type.text, size := size, strm := o.stream }

/-- What `write_pack` uses of an object, `gitdb/pack.py` 964-980: `type_id` (`gitdb/base.py` 56-58), `size`, `binsha`,
`stream`. -/
def OStream.toPackIn (zl : Zlib) (fuel : Nat) (o : OStream) : Res (PackIn PStream) :=
  match typeToTypeId o.type with
  | .error e => .error e
  | .ok typeId =>
    match o.getSize zl fuel with
    | .error e => .error e
    | .ok size => .ok ⟨typeId, size, o.sha, o.stream⟩

end GitDB
