import Verif.Model.Loose
import Verif.Spec.Loose
import Verif.Spec.Stream
import Verif.Proofs.Writers
import Verif.Proofs.Copy
import Verif.Proofs.Names
/-!
# Lemmas about storing loose objects
-/
set_option autoImplicit false

namespace GitDB
open Spec

variable {σ ω ρ : Type}

/-! ### copying only uses `write` -/

theorem streamCopyLoop_writes (read : σ → Int → σ × Res Bytes) (write : ω → Bytes → ω × Res ρ)
    (size chunk : Int) : ∀ (fuel : Nat) (dbw : Int) (s : σ) (w : ω), ∃ ds : List Bytes,
      (streamCopyLoop read write size chunk fuel dbw s w).2.1 = (writeMany write w ds).1 ∧
      ∀ n, (streamCopyLoop read write size chunk fuel dbw s w).2.2 = .ok n →
        ∃ rs, (writeMany write w ds).2 = .ok rs := by
  intro fuel
  induction fuel with
  | zero => intro dbw s w; exact ⟨[], rfl, by simp [streamCopyLoop]⟩
  | succ fuel ih =>
    intro dbw s w
    simp only [streamCopyLoop]
    rcases hr : read s (min chunk (size - dbw)) with ⟨s1, e | data⟩
    · exact ⟨[], rfl, by simp⟩
    · simp only
      rcases hw : write w data with ⟨w1, e | r⟩
      · exact ⟨[data], by simp [writeMany, hw], by simp⟩
      · simp only
        split
        · exact ⟨[data], by simp [writeMany, hw], by simp [writeMany, hw]⟩
        · obtain ⟨ds, h1, h2⟩ := ih (dbw + data.length) s1 w1
          refine ⟨data :: ds, ?_, ?_⟩
          · rw [h1]
            simp only [writeMany, hw]
            rcases writeMany write w1 ds with ⟨w2, e | rs⟩ <;> rfl
          · intro n hn
            obtain ⟨rs, h3⟩ := h2 n hn
            simp only [writeMany, hw]
            rcases hm : writeMany write w1 ds with ⟨w2, e | rs⟩
            · simp [hm] at h3
            · exact ⟨_, rfl⟩

theorem writeObject_writes (fuel : Nat) (ty : Bytes) (size : Nat) (read : σ → Int → σ × Res Bytes)
    (write : ω → Bytes → ω × Res (Option Int)) (chunk : Int) (s : σ) (w : ω) :
    ∃ ds : List Bytes,
      (writeObject fuel ty size read write chunk s w).2.1 = (writeMany write w ds).1 ∧
      ∀ n, (writeObject fuel ty size read write chunk s w).2.2 = .ok n →
        ∃ rs, (writeMany write w ds).2 = .ok rs := by
  unfold writeObject
  rcases looseObjectHeader ty size with e | hdr
  · exact ⟨[], rfl, by simp⟩
  · simp only
    rcases hw : write w hdr with ⟨w1, e | _ | n⟩
    · exact ⟨[hdr], by simp [writeMany, hw], by simp⟩
    · exact ⟨[hdr], by simp [writeMany, hw], by simp⟩
    · simp only
      obtain ⟨ds, h1, h2⟩ := streamCopyLoop_writes read write size chunk fuel 0 s w1
      unfold streamCopy
      refine ⟨hdr :: ds, ?_, ?_⟩
      · simp only [writeMany, hw]
        rcases hc : streamCopyLoop read write size chunk fuel 0 s w1 with ⟨s2, w2, e | m⟩ <;>
          rw [hc] at h1 <;> simp only at h1 ⊢ <;> rw [h1] <;>
          rcases writeMany write w1 ds with ⟨w3, e | rs⟩ <;> rfl
      · intro k hk
        simp only [writeMany, hw]
        rcases hc : streamCopyLoop read write size chunk fuel 0 s w1 with ⟨s2, w2, e | m⟩
        · simp [hc] at hk
        · obtain ⟨rs, h3⟩ := h2 m (by rw [hc])
          rcases hm : writeMany write w1 ds with ⟨w3, e | rs'⟩
          · simp [hm] at h3
          · exact ⟨_, rfl⟩

theorem fdWrite_many {zl : Zlib} (ds : List Bytes) : ∀ (w w' : FDCompressedSha1Writer zl)
    (rs : List (Option Int)), writeMany fdWrite w ds = (w', .ok rs) →
    ∃ rs', writeMany FDCompressedSha1Writer.write w ds = (w', .ok rs') := by
  induction ds with
  | nil => intro w w' rs h; simp only [writeMany, Prod.mk.injEq] at h ⊢; exact ⟨[], h.1, rfl⟩
  | cons d ds ih =>
    intro w w' rs h
    simp only [writeMany] at h ⊢
    rcases hw : w.write d with ⟨w1, e | n⟩
    · simp [fdWrite, hw] at h
    · have hf : fdWrite w d = (w1, .ok (some (n : Int))) := by simp [fdWrite, hw]
      simp only [hf] at h ⊢
      rcases hm : writeMany fdWrite w1 ds with ⟨w2, e | rs2⟩
      · simp [hm] at h
      · simp only [hm, Prod.mk.injEq, Except.ok.injEq] at h
        obtain ⟨rs', e'⟩ := ih w1 w2 rs2 hm
        obtain ⟨rfl, _⟩ := h
        exact ⟨n :: rs', by rw [e']⟩

theorem afterClose_ok {α : Type} {r : Res α} {c : Res Unit} (h : afterClose r c = .ok ()) :
    (∃ a, r = .ok a) ∧ c = .ok () := by
  unfold afterClose at h
  split at h <;> simp_all

/-- What a successful write of a new object leaves in the file: the compressed form of what was
hashed. -/
theorem writeNew_ok {H : Hash} {zl : Zlib} (L : ZlibLaws zl) {fuel : Nat} {plan : List WriteOutcome}
    {read : σ → Int → σ × Res Bytes} {i : IStream σ}
    (h : (writeNew H zl fuel plan read i).2.2.1 = .ok ()) :
    ∃ ds : List Bytes, IsZip zl (writeNew H zl fuel plan read i).1.flatten
        (writeNew H zl fuel plan read i).1.flatten.length ds.flatten ∧
      (writeNew H zl fuel plan read i).2.2.2 = binToHex (H.digest ds.flatten) ∧
      ∃ rs, writeMany fdWrite (FDCompressedSha1Writer.new zl { plan := plan }) ds =
        ((writeObject fuel i.type i.size read fdWrite looseChunk i.strm
          (FDCompressedSha1Writer.new zl { plan := plan })).2.1, .ok rs) := by
  unfold writeNew at *
  simp only at *
  obtain ⟨ds, h1, h2⟩ := writeObject_writes fuel i.type i.size read fdWrite looseChunk i.strm
    (FDCompressedSha1Writer.new zl { plan := plan })
  rcases hr : writeObject fuel i.type i.size read fdWrite looseChunk i.strm
    (FDCompressedSha1Writer.new zl { plan := plan }) with ⟨s, w, e | n⟩
  · rw [hr] at h; simpa using (afterClose_ok h).1
  · rw [hr] at h h1 h2
    simp only at h h1 h2 ⊢
    obtain ⟨rs, h3⟩ := h2 n rfl
    have h4 : writeMany fdWrite (FDCompressedSha1Writer.new zl { plan := plan }) ds = (w, .ok rs) :=
      Prod.ext h1.symm h3
    obtain ⟨rs', h5⟩ := fdWrite_many ds _ _ _ h4
    rcases hc : w.close with ⟨w', e' | u⟩
    · rw [hc] at h; simp [afterClose] at h
    · obtain ⟨_, k2, k3, _⟩ := fd_writeMany ds _ _ _ _ h5 hc
      have hcont : w'.fd.chunks.flatten = zl.emit (zl.cinit 1) ds := by
        have : w'.fd.content = w'.fd.chunks.flatten := rfl
        rw [← this, k3]; simp [FDCompressedSha1Writer.new, Fd.content]
      refine ⟨ds, ?_, ?_, rs, h4⟩
      · rw [hcont]; exact ⟨L.emit_stop 1 ds, L.emit_out 1 ds⟩
      · simp [Sha1Writer.sha, k2, FDCompressedSha1Writer.new]

/-! ### raw copies -/

theorem streamCopyLoop_fuel {read : σ → Int → σ × Res Bytes} {write : ω → Bytes → ω × Res ρ}
    {size chunk : Int} : ∀ (fuel k : Nat) (dbw : Int) (s : σ) (w : ω),
      (streamCopyLoop read write size chunk fuel dbw s w).2.2 ≠ .error .diverge →
      streamCopyLoop read write size chunk (fuel + k) dbw s w =
        streamCopyLoop read write size chunk fuel dbw s w := by
  intro fuel
  induction fuel with
  | zero => intro k dbw s w h; simp [streamCopyLoop] at h
  | succ fuel ih =>
    intro k dbw s w h
    rw [show fuel + 1 + k = (fuel + k) + 1 by omega]
    simp only [streamCopyLoop] at h ⊢
    rcases hr : read s (min chunk (size - dbw)) with ⟨s1, e | data⟩
    · rfl
    · simp only [hr] at h ⊢
      rcases hw : write w data with ⟨w1, e | r⟩
      · rfl
      · simp only [hw] at h ⊢
        split
        · rfl
        · rename_i hc
          rw [if_neg hc] at h
          exact ih k _ _ _ h

/-- Writing through an `FDStream` when the system never writes short. -/
theorem fdstream_stores : ∀ (w : FDStream) (d : Bytes),
    (∀ k, WriteOutcome.short k ∉ w.fd.plan) → w.fd.closed = false →
    (∃ w', w.write d = (w', .ok none) ∧ w'.fd.content = w.fd.content ++ d ∧
      (∀ k, WriteOutcome.short k ∉ w'.fd.plan) ∧ w'.fd.closed = false) ∨
    (∃ w' e, w.write d = (w', .error e)) := by
  intro w d hp hcl
  unfold FDStream.write Fd.write
  rw [if_neg (by simp [hcl])]
  rcases hpl : w.fd.plan with _ | ⟨_ | k | _, p⟩
  · exact Or.inl ⟨_, rfl, by simp [Fd.content], by simp, hcl⟩
  · refine Or.inl ⟨_, rfl, by simp [Fd.content], ?_, hcl⟩
    intro k hk; exact hp k (by rw [hpl]; simp [hk])
  · exact absurd (by rw [hpl]; simp) (hp k)
  · exact Or.inr ⟨_, _, rfl⟩

theorem rawLoop_ok {read : σ → Int → σ × Res Bytes} {Rep : σ → Bytes → Prop}
    (hr : BoundedReads read Rep) (size chunk : Int) (hc : 1 ≤ chunk) :
    ∀ (fuel : Nat) (dbw : Int) (s : σ) (w : FDStream) (rem : Bytes) (n : Int), Rep s rem →
      (∀ k, WriteOutcome.short k ∉ w.fd.plan) → w.fd.closed = false →
      1 ≤ size - dbw → (rem.length : Int) ≤ size - dbw →
      (streamCopyLoop read FDStream.write size chunk fuel dbw s w).2.2 = .ok n →
      (streamCopyLoop read FDStream.write size chunk fuel dbw s w).2.1.fd.content =
        w.fd.content ++ rem := by
  intro fuel
  induction fuel with
  | zero => intro dbw s w rem n _ _ _ _ _ h; simp [streamCopyLoop] at h
  | succ fuel ih =>
    intro dbw s w rem n hs hp hcl h1 h2 h
    simp only [streamCopyLoop] at h ⊢
    obtain ⟨s1, e1, r1⟩ := hr.read_pos s rem (min chunk (size - dbw)) hs (by omega)
    simp only [e1] at h ⊢
    rcases fdstream_stores w (rem.take (min chunk (size - dbw)).toNat) hp hcl with
      ⟨w1, e2, c2, p2, k2⟩ | ⟨w1, e, e2⟩
    · simp only [e2] at h ⊢
      split
      · rename_i hd
        simp only
        rw [c2]
        congr 1
        apply List.take_of_length_le
        simp only [List.length_take] at hd
        omega
      · rename_i hd
        rw [if_neg hd] at h
        simp only [List.length_take] at hd h
        rw [ih _ _ _ _ n r1 p2 k2 (by simp only [List.length_take]; omega) (by simp only [List.length_drop, List.length_take]; omega)
          (by simpa only [List.length_take] using h)]
        rw [c2, List.append_assoc, List.take_append_drop]
    · simp [e2] at h

theorem writeRaw_ok {fuel : Nat} {plan : List WriteOutcome} {read : σ → Int → σ × Res Bytes}
    {Rep : σ → Bytes → Prop} (hr : BoundedReads read Rep) {i : IStream σ} {rem : Bytes}
    (hs : Rep i.strm rem) (hp : ∀ k, WriteOutcome.short k ∉ plan) (hl : rem.length < 2 ^ 63)
    (h : (writeRaw fuel plan read i).2.2 = .ok ()) : (writeRaw fuel plan read i).1.flatten = rem := by
  unfold writeRaw at *
  simp only at *
  rcases hc : streamCopy fuel read FDStream.write maxsize looseChunk i.strm
    ({ fd := { plan := plan } } : FDStream) with ⟨s, w, e | n⟩
  · rw [hc] at h; simpa using (afterClose_ok h).1
  · have := rawLoop_ok hr maxsize looseChunk (by decide) fuel 0 i.strm
      ({ fd := { plan := plan } } : FDStream) rem n hs hp rfl (by decide)
      (by unfold maxsize; omega) (by unfold streamCopy at hc; rw [hc])
    unfold streamCopy at hc
    rw [hc] at this
    simp only [Fd.content, List.flatten_nil, List.nil_append] at this
    simp only [Fd.close]
    split <;> exact this

/-! ### the shape of a store's trace -/

/-- What a store may still do. -/
inductive Phase where
  | fresh
  | opened (content : Bytes)
  | gone

/-- The rest of a trace is harmless: the temporary file is created, filled, and either removed or moved to
the path its contents deserve. -/
inductive Safe (H : Hash) (zl : Zlib) (tmp : Path) : Phase → List Ev → Prop
  | nil (ph : Phase) : Safe H zl tmp ph []
  | create {es : List Ev} (h : Safe H zl tmp (.opened []) es) : Safe H zl tmp .fresh (.create tmp :: es)
  | append {c d : Bytes} {es : List Ev} (h : Safe H zl tmp (.opened (c ++ d)) es) :
      Safe H zl tmp (.opened c) (.append tmp d :: es)
  | mkdir {ph : Phase} {d : Bytes} {es : List Ev} (h : Safe H zl tmp ph es) :
      Safe H zl tmp ph (.mkdir [d] :: es)
  | isfile {ph : Phase} {p : Path} {b : Bool} {es : List Ev} (h : Safe H zl tmp ph es) :
      Safe H zl tmp ph (.isfile p b :: es)
  | chmod {ph : Phase} {d f : Bytes} {m : Nat} {es : List Ev} (h : Safe H zl tmp ph es) :
      Safe H zl tmp ph (.chmod [d, f] m :: es)
  | rename {c d f : Bytes} {es : List Ev} (hc : CompleteObject H zl (d ++ f) c)
      (h : Safe H zl tmp .gone es) : Safe H zl tmp (.opened c) (.rename tmp [d, f] :: es)
  | remove {c : Bytes} {es : List Ev} (h : Safe H zl tmp .gone es) :
      Safe H zl tmp (.opened c) (.remove tmp :: es)

theorem safe_appends {H : Hash} {zl : Zlib} {tmp : Path} {es : List Ev} (ds : List Bytes) : ∀ (c : Bytes),
    Safe H zl tmp (.opened (c ++ ds.flatten)) es →
    Safe H zl tmp (.opened c) (ds.map (.append tmp) ++ es) := by
  induction ds with
  | nil => intro c h; simpa using h
  | cons d ds ih =>
    intro c h
    exact .append (ih (c ++ d) (by simpa using h))

theorem safe_chmods {H : Hash} {zl : Zlib} {tmp : Path} (ph : Phase) (d f : Bytes) :
    ∀ (n : Nat) (cs : List ChmodOutcome), Safe H zl tmp ph (chmodLoop [d, f] n cs).1 := by
  intro n
  induction n with
  | zero => intro cs; exact .nil _
  | succ n ih =>
    intro cs
    rcases cs with _ | ⟨_ | _ | _, cs⟩
    · exact .chmod (.nil _)
    · exact .chmod (.nil _)
    · exact ih cs
    · exact .nil _

theorem safe_publish {H : Hash} {zl : Zlib} {tmp : Path} (env : StoreEnv) (hex c : Bytes)
    (hc : CompleteObject H zl hex c) :
    Safe H zl tmp (.opened c) (publish env tmp (objectPath hex)).1 := by
  unfold publish objectPath
  split
  · exact .nil _
  · simp only
    split
    · exact .mkdir (.isfile (.nil _))
    · simp only [List.cons_append, List.nil_append]
      refine .mkdir (.isfile ?_)
      cases env.isfile
      · exact .rename (by rwa [List.take_append_drop]) (safe_chmods _ _ _ _ _)
      · exact .remove (safe_chmods _ _ _ _ _)

/-- Honest sources: either the store computes the name itself, or the stream really holds the compressed
object of the given name and no `write(2)` is short. -/
inductive Honest (H : Hash) (zl : Zlib) (env : StoreEnv) (read : σ → Int → σ × Res Bytes)
    (i : IStream σ) : Prop
  | unnamed (h : i.binsha = none)
  | named (Rep : σ → Bytes → Prop) (rem x : Bytes) (h : i.binsha = some (H.digest x))
      (hr : BoundedReads read Rep) (hs : Rep i.strm rem) (hz : IsZip zl rem rem.length x)
      (hl : rem.length < 2 ^ 63) (hp : ∀ k, WriteOutcome.short k ∉ env.plan)

/-- The list of system calls of a store of an honest source. -/
inductive StoreTrace (H : Hash) (zl : Zlib) : List Ev → Prop
  | mk {σ : Type} (fuel : Nat) (env : StoreEnv) (read : σ → Int → σ × Res Bytes) (i : IStream σ)
      (h : Honest H zl env read i) : StoreTrace H zl (looseStore H zl fuel env read i).1

theorem store_safe {H : Hash} {zl : Zlib} (L : ZlibLaws zl) {es : List Ev} (h : StoreTrace H zl es) :
    ∃ tmp, Safe H zl (tmpPath tmp) .fresh es := by
  obtain ⟨fuel, env, read, i, hh⟩ := h
  unfold looseStore
  rcases env.tmp with _ | rnd
  · exact ⟨[], .nil _⟩
  refine ⟨rnd, ?_⟩
  simp only
  rcases hh with hb | ⟨Rep, rem, x, hb, hr, hs, hz, hl, hp⟩
  · rw [hb]
    simp only
    rcases hr : (writeNew H zl fuel env.plan read i).2.2.1 with e | u
    · simp only
      split
      · simp only [List.cons_append]
        exact .create (safe_appends _ _ (.remove (.nil _)))
      · simp only
        exact .create (by simpa using safe_appends (es := []) _ [] (.nil _))
    · obtain ⟨ds, h1, h2, _⟩ := writeNew_ok L hr
      simp only [storedName]
      rw [h2]
      have hs : Safe H zl (tmpPath rnd) .fresh (.create (tmpPath rnd) ::
          List.map (.append (tmpPath rnd)) (writeNew H zl fuel env.plan read i).1 ++
          (publish env (tmpPath rnd) (objectPath (binToHex (H.digest ds.flatten)))).1) :=
        .create (safe_appends _ _ (safe_publish env _ _ ⟨_, by simpa using h1, binToHex_isHexOf _⟩))
      rcases (publish env (tmpPath rnd) (objectPath (binToHex (H.digest ds.flatten)))).2 with e | u
      · exact hs
      · rw [hexToBin_binToHex]; exact hs
  · rw [hb]
    simp only
    rcases hw : (writeRaw fuel env.plan read i).2.2 with e | u
    · simp only
      split
      · simp only [List.cons_append]
        exact .create (safe_appends _ _ (.remove (.nil _)))
      · simp only
        exact .create (by simpa using safe_appends (es := []) _ [] (.nil _))
    · have hcont := writeRaw_ok hr hs hp hl hw
      have hne : storedName (some (H.digest x)) [] = .ok (binToHex (H.digest x)) := by
        have := H.len x
        unfold storedName
        split
        · simp_all
        · rename_i hh; injection hh with hh; rw [hh] at this; simp at this
        · rename_i hh; injection hh with hh; rw [hh]
      rw [hne]
      simp only
      have hs : Safe H zl (tmpPath rnd) .fresh (.create (tmpPath rnd) ::
          List.map (.append (tmpPath rnd)) (writeRaw fuel env.plan read i).1 ++
          (publish env (tmpPath rnd) (objectPath (binToHex (H.digest x)))).1) :=
        .create (safe_appends _ _ (safe_publish env _ _ ⟨x, by simpa [hcont] using hz, binToHex_isHexOf _⟩))
      rcases (publish env (tmpPath rnd) (objectPath (binToHex (H.digest x)))).2 with e | u
      · exact hs
      · rw [hexToBin_binToHex]; exact hs

/-! ### concurrency -/

/-- The invariant of concurrent stores. -/
structure StoreInv {ι : Type} (H : Hash) (zl : Zlib) (s : Sys ι) : Prop where
  complete : ObjectsComplete H zl s.fs
  procs : ∃ (tmp : ι → Bytes) (ph : ι → Phase), (∀ i, Safe H zl (tmpPath (tmp i)) (ph i) (s.todo i)) ∧
    (∀ i c, ph i = .opened c → ∃ m, s.fs (tmpPath (tmp i)) = some (.file c m)) ∧
    ∀ i j c c', ph i = .opened c → ph j = .opened c' → tmp i = tmp j → i = j

theorem tmp_ne_two (r d f : Bytes) : tmpPath r ≠ [d, f] := by simp [tmpPath]

theorem Fs.set_same (fs : Fs) (p : Path) (n : Option Node) : fs.set p n p = n := by simp [Fs.set]
theorem Fs.set_other (fs : Fs) {p q : Path} (n : Option Node) (h : q ≠ p) : fs.set p n q = fs q := by
  simp [Fs.set, h]

theorem tmpPath_inj {a b : Bytes} (h : tmpPath a = tmpPath b) : a = b := by
  simpa [tmpPath] using h

theorem step_rename {fs fs' : Fs} {a b : Path} {c : Bytes} {m : Nat} (h : fs a = some (.file c m))
    (hs : fs.step (.rename a b) = some fs') : fs' = (fs.set a none).set b (some (.file c m)) := by
  simp only [Fs.step, h] at hs
  rcases hb : fs b with _ | _ | ⟨c', m'⟩ <;> simp only [hb] at hs
  · split at hs <;> simp_all
  · simp at hs
  · split at hs <;> simp_all

/-- Changes to temporary files and directories do not concern objects. -/
theorem complete_set_one {H : Hash} {zl : Zlib} {fs : Fs} (h : ObjectsComplete H zl fs) (p : Path)
    (n : Option Node) (hp : p.length = 1) : ObjectsComplete H zl (fs.set p n) := by
  intro d f data m e
  rw [Fs.set_other] at e
  · exact h d f data m e
  · intro hh; rw [← hh] at hp; simp at hp

theorem storeInv_step {ι : Type} [DecidableEq ι] {H : Hash} {zl : Zlib} {s t : Sys ι}
    (hi : StoreInv H zl s) (hst : Sys.Step s t) :
    StoreInv H zl t ∧ ∀ p, p.length = 2 → IsFile s.fs p → IsFile t.fs p := by
  obtain ⟨hc, tmp, ph, hsafe, hfile, hdist⟩ := hi
  obtain ⟨i, e, es, fs', hi, hs⟩ := hst
  have hsi := hsafe i
  rw [hi] at hsi
  -- the new phases
  have mk : ∀ (q : Phase), Safe H zl (tmpPath (tmp i)) q es → ObjectsComplete H zl fs' →
      (∀ c, q = .opened c → ∃ m, fs' (tmpPath (tmp i)) = some (.file c m)) →
      (∀ j c, j ≠ i → ph j = .opened c → fs' (tmpPath (tmp j)) = s.fs (tmpPath (tmp j))) →
      (∀ j c c', j ≠ i → q = .opened c' → ph j = .opened c → tmp j ≠ tmp i) →
      StoreInv H zl ({ todo := fun j => if j = i then es else s.todo j, fs := fs' } : Sys ι) := by
    intro q h1 h2 h3 h4 h5
    refine ⟨h2, tmp, fun j => if j = i then q else ph j, ?_, ?_, ?_⟩
    · intro j
      simp only
      by_cases hj : j = i
      · subst hj; simpa using h1
      · simpa [hj] using hsafe j
    · intro j c hjc
      simp only at hjc ⊢
      by_cases hj : j = i
      · subst hj; simp only [if_pos] at hjc; exact h3 c hjc
      · simp only [if_neg hj] at hjc
        rw [h4 j c hj hjc]; exact hfile j c hjc
    · intro j k c c' hj hk ht
      simp only at hj hk
      by_cases ej : j = i
      · by_cases ek : k = i
        · rw [ej, ek]
        · subst ej
          simp only [if_pos] at hj; simp only [if_neg ek] at hk
          exact absurd ht.symm (h5 k c' c ek hj hk)
      · by_cases ek : k = i
        · subst ek
          simp only [if_pos] at hk; simp only [if_neg ej] at hj
          exact absurd ht (h5 j c c' ej hk hj)
        · simp only [if_neg ej] at hj; simp only [if_neg ek] at hk
          exact hdist j k c c' hj hk ht
  have one : (tmpPath (tmp i)).length = 1 := by simp [tmpPath]
  have tmpne : ∀ j d f, tmpPath (tmp j) ≠ [d, f] := fun j d f => tmp_ne_two _ d f
  have keep : ∀ (p : Path) n, p.length = 1 → fs' = s.fs.set p n →
      ∀ q, q.length = 2 → IsFile s.fs q → IsFile fs' q := by
    intro p n hp hf q hq hh
    rw [hf, IsFile, Fs.set_other _ _ (by intro hqp; rw [hqp] at hq; omega)]
    exact hh
  generalize hphi : ph i = phi at hsi
  cases hsi with
  | create h =>
    rcases hp : s.fs (tmpPath (tmp i)) with _ | n
    · simp only [Fs.step, hp, Option.some.injEq] at hs
      subst hs
      refine ⟨mk _ h (complete_set_one hc _ _ one) ?_ ?_ ?_, keep _ _ one rfl⟩
      · intro c hcc
        cases hcc
        exact ⟨_, Fs.set_same _ _ _⟩
      · intro j c hj hjc
        obtain ⟨m, hm⟩ := hfile j c hjc
        exact Fs.set_other _ _ (by intro hh; rw [hh, hp] at hm; cases hm)
      · intro j c c' hj _ hjc ht
        obtain ⟨m, hm⟩ := hfile j c hjc
        rw [ht, hp] at hm; cases hm
    · simp [Fs.step, hp] at hs
  | @append c d _ h =>
    obtain ⟨m, hm⟩ := hfile i _ hphi
    simp only [Fs.step, hm, Option.some.injEq] at hs
    subst hs
    refine ⟨mk _ h (complete_set_one hc _ _ one) ?_ ?_ ?_, keep _ _ one rfl⟩
    · intro c hcc
      cases hcc
      exact ⟨m, Fs.set_same _ _ _⟩
    · intro j c hj hjc
      refine Fs.set_other _ _ ?_
      intro hh; exact hj (hdist j i _ _ hjc hphi (tmpPath_inj hh))
    · intro j c c' hj _ hjc ht
      exact hj (hdist j i _ _ hjc hphi ht)
  | @mkdir _ d _ h =>
    simp only [Fs.step] at hs
    split at hs
    · rename_i hn
      simp only [Option.some.injEq] at hs
      subst hs
      refine ⟨mk _ h (complete_set_one hc _ _ rfl) ?_ ?_ ?_, keep _ _ rfl rfl⟩
      · intro c hcc
        obtain ⟨m, hm⟩ := hfile i c (by rw [hphi, hcc])
        refine ⟨m, ?_⟩
        rw [Fs.set_other _ _ (by intro hh; rw [hh, hn] at hm; cases hm)]; exact hm
      · intro j c hj hjc
        obtain ⟨m, hm⟩ := hfile j c hjc
        exact Fs.set_other _ _ (by intro hh; rw [hh, hn] at hm; cases hm)
      · intro j c c' hj hq hjc ht
        exact hj (hdist j i _ _ hjc (by rw [hphi, hq]) ht)
    · simp only [Option.some.injEq] at hs
      subst hs
      refine ⟨mk _ h hc (fun c hcc => hfile i c (by rw [hphi, hcc])) (fun _ _ _ _ => rfl) ?_,
        fun _ _ h => h⟩
      intro j c c' hj hq hjc ht
      exact hj (hdist j i _ _ hjc (by rw [hphi, hq]) ht)
    · simp at hs
  | @isfile _ p b _ h =>
    have : fs' = s.fs := by
      simp only [Fs.step] at hs
      split at hs <;> simp_all
    subst this
    refine ⟨mk _ h hc (fun c hcc => hfile i c (by rw [hphi, hcc])) (fun _ _ _ _ => rfl) ?_,
      fun _ _ h => h⟩
    intro j c c' hj hq hjc ht
    exact hj (hdist j i _ _ hjc (by rw [hphi, hq]) ht)
  | @chmod _ d f m _ h =>
    simp only [Fs.step] at hs
    split at hs
    · rename_i data m' hn
      simp only [Option.some.injEq] at hs
      subst hs
      refine ⟨mk _ h ?_ ?_ ?_ ?_, ?_⟩
      · intro d' f' data' m'' e
        by_cases hdf : [d', f'] = [d, f]
        · rw [hdf, Fs.set_same] at e
          simp only [Option.some.injEq, Node.file.injEq] at e
          obtain ⟨rfl, _⟩ := e
          simp only [List.cons.injEq, and_true] at hdf
          obtain ⟨rfl, rfl⟩ := hdf
          exact hc _ _ _ _ hn
        · rw [Fs.set_other _ _ hdf] at e
          exact hc _ _ _ _ e
      · intro c hcc
        rw [Fs.set_other _ _ (tmpne i d f)]
        exact hfile i c (by rw [hphi, hcc])
      · intro j c hj hjc
        exact Fs.set_other _ _ (tmpne j d f)
      · intro j c c' hj hq hjc ht
        exact hj (hdist j i _ _ hjc (by rw [hphi, hq]) ht)
      · intro p hp hh
        by_cases hdf : p = [d, f]
        · subst hdf; exact ⟨_, _, Fs.set_same _ _ _⟩
        · simp only [IsFile]; rw [Fs.set_other _ _ hdf]; exact hh
    · simp at hs
  | @rename c d f _ hcomp h =>
    obtain ⟨m, hm⟩ := hfile i _ hphi
    have : fs' = (s.fs.set (tmpPath (tmp i)) none).set [d, f] (some (.file c m)) := by
      exact step_rename hm hs
    subst this
    refine ⟨mk _ h ?_ ?_ ?_ ?_, ?_⟩
    · intro d' f' data' m'' e
      by_cases hdf : [d', f'] = [d, f]
      · rw [hdf, Fs.set_same] at e
        simp only [Option.some.injEq, Node.file.injEq] at e
        obtain ⟨rfl, _⟩ := e
        simp only [List.cons.injEq, and_true] at hdf
        obtain ⟨rfl, rfl⟩ := hdf
        exact hcomp
      · rw [Fs.set_other _ _ hdf] at e
        exact complete_set_one hc _ _ one _ _ _ _ e
    · intro c hcc; cases hcc
    · intro j c' hj hjc
      rw [Fs.set_other _ _ (tmpne j d f)]
      refine Fs.set_other _ _ ?_
      intro hh; exact hj (hdist j i _ _ hjc hphi (tmpPath_inj hh))
    · intro j c c' hj hq; cases hq
    · intro p hp hh
      by_cases hdf : p = [d, f]
      · subst hdf; exact ⟨_, _, Fs.set_same _ _ _⟩
      · simp only [IsFile]
        rw [Fs.set_other _ _ hdf, Fs.set_other _ _ (by intro hq; rw [hq] at hp; omega)]; exact hh
  | @remove c _ h =>
    obtain ⟨m, hm⟩ := hfile i _ hphi
    simp only [Fs.step, hm, Option.some.injEq] at hs
    subst hs
    refine ⟨mk _ h (complete_set_one hc _ _ one) ?_ ?_ ?_, keep _ _ one rfl⟩
    · intro c hcc; cases hcc
    · intro j c hj hjc
      refine Fs.set_other _ _ ?_
      intro hh; exact hj (hdist j i _ _ hjc hphi (tmpPath_inj hh))
    · intro j c c' hj hq; cases hq

theorem storeInv_reach {ι : Type} [DecidableEq ι] {H : Hash} {zl : Zlib} {s t : Sys ι}
    (hi : StoreInv H zl s) (hr : Sys.Reach s t) :
    StoreInv H zl t ∧ ∀ p, p.length = 2 → IsFile s.fs p → IsFile t.fs p := by
  induction hr with
  | refl => exact ⟨hi, fun _ _ h => h⟩
  | step _ h' ih =>
    obtain ⟨h1, h2⟩ := storeInv_step ih.1 h'
    exact ⟨h1, fun p hp h => h2 p hp (ih.2 p hp h)⟩

theorem storeInv_init {ι : Type} {H : Hash} {zl : Zlib} (L : ZlibLaws zl) {s : Sys ι}
    (hc : ObjectsComplete H zl s.fs) (ht : ∀ i, StoreTrace H zl (s.todo i)) : StoreInv H zl s := by
  have := fun i => store_safe L (ht i)
  refine ⟨hc, fun i => Classical.choose (this i), fun _ => .fresh,
    fun i => Classical.choose_spec (this i), ?_, ?_⟩
  · intro i c h; cases h
  · intro i j c c' h; cases h

end GitDB
