import Verif.Model.Loose
/-!
# Storing through an output stream of the caller
-/
set_option autoImplicit false

namespace GitDB

/-- An argument of `set_ostream`: `None`, a `Sha1Writer` (identified by its number) or any other object. -/
inductive OstreamArg where
  | none
  | writer (k : Nat)
  | other
  deriving DecidableEq, Repr

/-- The writers of the process and the attribute `_ostream` of a `LooseObjectDB`, `gitdb/db/base.py` 70-71.
Simplification: all writers are plain `Sha1Writer`s. -/
structure OstreamState where
  ostream : Option Nat := none
  heap : Nat → Sha1Writer := fun _ => {}

/-- `set_ostream(stream)`, `gitdb/db/loose.py` 148-152, `gitdb/db/base.py` 74-84: the previous stream is returned.
`GitDB.set_ostream` passes the call on, `gitdb/db/git.py` 81-82. -/
def OstreamState.setOstream (st : OstreamState) : OstreamArg → OstreamState × Res (Option Nat)
  | .other => (st, .error .typeError)
  | .none => ({ st with ostream := Option.none }, .ok st.ostream)
  | .writer k => ({ st with ostream := some k }, .ok st.ostream)

/-- `ostream()`, `gitdb/db/base.py` 86-92. -/
def OstreamState.get (st : OstreamState) : Option Nat := st.ostream

/-- `Sha1Writer.write` with the kind of result `write_object` expects. -/
def sha1Write (w : Sha1Writer) (d : Bytes) : Sha1Writer × Res (Option Int) :=
  match w.write d with
  | (w, .ok n) => (w, .ok (some (n : Int)))
  | (w, .error e) => (w, .error e)

variable {σ : Type}

/-- `LooseObjectDB.store(istream)`, `gitdb/db/loose.py` 177-251: to a file, or to the stream that was set. -/
def OstreamState.store (H : Hash) (zl : Zlib) (fuel : Nat) (env : StoreEnv) (read : σ → Int → σ × Res Bytes)
    (st : OstreamState) (i : IStream σ) : OstreamState × List Ev × IStream σ × Res Unit :=
  match st.ostream with
  | none => let r := looseStore H zl fuel env read i; (st, r.1, r.2.1, r.2.2)
  | some k =>
    let r := looseStoreTo fuel read sha1Write (fun w => w.sha H true) i (st.heap k)
    ({ st with heap := fun j => if j = k then r.1 else st.heap j }, [], r.2.1, r.2.2)

/-- A sequence of calls of `set_ostream`: the results. -/
def OstreamState.setAll (st : OstreamState) : List OstreamArg → OstreamState × List (Res (Option Nat))
  | [] => (st, [])
  | a :: as =>
    let r := st.setOstream a
    let s := r.1.setAll as
    (s.1, r.2 :: s.2)

/-- A sequence of calls of `store`: names given and outcomes. -/
def OstreamState.storeAll (H : Hash) (zl : Zlib) (fuel : Nat) (env : StoreEnv) (read : σ → Int → σ × Res Bytes)
    (st : OstreamState) : List (IStream σ) → OstreamState × List (Option Bytes × Res Unit)
  | [] => (st, [])
  | i :: is =>
    let r := st.store H zl fuel env read i
    let s := r.1.storeAll H zl fuel env read is
    (s.1, (r.2.2.1.binsha, r.2.2.2) :: s.2)

end GitDB
