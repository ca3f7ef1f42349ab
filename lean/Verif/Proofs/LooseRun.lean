import Verif.Proofs.Loose
/-!
# What one store does to the file system
-/
set_option autoImplicit false

namespace GitDB
open Spec

variable {σ ω ρ : Type}

/-! ### what is copied -/

theorem streamCopyLoop_ok {read : σ → Int → σ × Res Bytes} {write : ω → Bytes → ω × Res ρ}
    {Rep : σ → Bytes → Prop} (hr : BoundedReads read Rep) (size chunk : Int) (hc : 1 ≤ chunk) :
    ∀ (fuel : Nat) (dbw : Int) (s : σ) (w : ω) (rem : Bytes) (n : Int), Rep s rem →
      1 ≤ size - dbw →
      (streamCopyLoop read write size chunk fuel dbw s w).2.2 = .ok n →
      ∃ (ds : List Bytes) (rs : List ρ), writeMany write w ds =
          ((streamCopyLoop read write size chunk fuel dbw s w).2.1, .ok rs) ∧
        ds.flatten = rem.take (size - dbw).toNat := by
  intro fuel
  induction fuel with
  | zero => intro dbw s w rem n _ _ h; simp [streamCopyLoop] at h
  | succ fuel ih =>
    intro dbw s w rem n hs h1 h
    simp only [streamCopyLoop] at h ⊢
    obtain ⟨s1, e1, r1⟩ := hr.read_pos s rem (min chunk (size - dbw)) hs (by omega)
    simp only [e1] at h ⊢
    rcases hw : write w (rem.take (min chunk (size - dbw)).toNat) with ⟨w1, e | r⟩
    · simp [hw] at h
    · simp only [hw] at h ⊢
      split
      · rename_i hd
        refine ⟨[rem.take (min chunk (size - dbw)).toNat], [r], by simp [writeMany, hw], ?_⟩
        simp only [List.flatten_cons, List.flatten_nil, List.append_nil]
        simp only [List.length_take] at hd
        rcases Nat.le_total rem.length (min chunk (size - dbw)).toNat with hh | hh
        · rw [List.take_of_length_le hh, List.take_of_length_le (by omega)]
        · congr 1; omega
      · rename_i hd
        rw [if_neg hd] at h
        simp only [List.length_take] at hd
        obtain ⟨ds, rs, k1, k2⟩ := ih (dbw + (rem.take (min chunk (size - dbw)).toNat).length) s1 w1 _ n r1
          (by simp only [List.length_take]; omega) h
        refine ⟨rem.take (min chunk (size - dbw)).toNat :: ds, r :: rs, by simp only [writeMany, hw, k1], ?_⟩
        rw [List.flatten_cons, k2]
        simp only [List.length_take]
        rw [show (size - (dbw + ((min (min chunk (size - dbw)).toNat rem.length : Nat) : Int))).toNat =
          (size - dbw).toNat - (min chunk (size - dbw)).toNat by omega]
        rw [List.take_drop, show (min chunk (size - dbw)).toNat +
          ((size - dbw).toNat - (min chunk (size - dbw)).toNat) = (size - dbw).toNat by omega]
        conv => lhs; arg 1; rw [← Nat.min_eq_left (show (min chunk (size - dbw)).toNat ≤ (size - dbw).toNat by omega)]
        rw [← List.take_take, List.take_append_drop]

/-- The pieces written by a successful `write_object`: header and data. -/
theorem writeObject_ok {read : σ → Int → σ × Res Bytes} {write : ω → Bytes → ω × Res (Option Int)}
    {Rep : σ → Bytes → Prop} (hr : FileReads read Rep ∨ ObjectReads read Rep) {fuel : Nat} {ty : Bytes}
    {chunk : Int} (hc : 1 ≤ chunk) {s : σ} {w : ω} {data : Bytes} (hs : Rep s data) {n : Int}
    (h : (writeObject fuel ty data.length read write chunk s w).2.2 = .ok n) :
    ∃ (ds : List Bytes) (rs : List (Option Int)), writeMany write w ds =
        ((writeObject fuel ty data.length read write chunk s w).2.1, .ok rs) ∧
      ds.flatten = ty ++ [0x20] ++ natToDec data.length ++ [0] ++ data ∧ (∀ b ∈ ty, b.toNat < 128) := by
  unfold writeObject at h ⊢
  unfold looseObjectHeader at h ⊢
  by_cases ht : ty.all (fun b => decide (b.toNat < 128)) = true
  · rw [if_pos ht] at h ⊢
    simp only at h ⊢
    have ht' : ∀ b ∈ ty, b.toNat < 128 := by simpa using ht
    rcases hw : write w (ty ++ [0x20] ++ natToDec data.length ++ [0]) with ⟨w1, e | _ | k⟩
    · simp only [hw] at h; cases h
    · simp only [hw] at h; cases h
    · simp only [hw] at h ⊢
      suffices hsuf : ∀ m, (streamCopy fuel read write data.length chunk s w1).2.2 = .ok m →
          ∃ (ds : List Bytes) (rs : List (Option Int)), writeMany write w1 ds =
            ((streamCopy fuel read write data.length chunk s w1).2.1, .ok rs) ∧ ds.flatten = data by
        rcases hcp : streamCopy fuel read write data.length chunk s w1 with ⟨s2, w2, e | m⟩
        · simp [hcp] at h
        · obtain ⟨ds, rs, k1, k2⟩ := hsuf m (by rw [hcp])
          rw [hcp] at k1
          exact ⟨(ty ++ [0x20] ++ natToDec data.length ++ [0]) :: ds, some k :: rs, by simp only [writeMany, hw, k1], by rw [List.flatten_cons, k2], ht'⟩
      intro m hm
      by_cases h0 : data = []
      · subst h0
        have hread : ∃ s', read s 0 = (s', .ok []) := by
          rcases hr with hr | hr
          · obtain ⟨s', e, _⟩ := hr.read_zero s [] hs; exact ⟨s', e⟩
          · obtain ⟨s', e, _⟩ := hr.read_all s [] 0 hs (by omega); exact ⟨s', e⟩
        obtain ⟨s', e⟩ := hread
        have hmin : min chunk (((([] : Bytes).length : Nat) : Int) - 0) = 0 := by
          simp only [List.length_nil]; omega
        unfold streamCopy at hm ⊢
        cases fuel with
        | zero => simp [streamCopyLoop] at hm
        | succ fuel =>
          simp only [streamCopyLoop, hmin, e] at hm ⊢
          rcases hw2 : write w1 [] with ⟨w2, e2 | r2⟩
          · simp [hw2] at hm
          · refine ⟨[[]], [r2], ?_, rfl⟩
            simp [writeMany, hw2]
      · have hl : 1 ≤ data.length := by
          rcases data with _ | ⟨a, b⟩
          · exact absurd rfl h0
          · simp
        have hb : BoundedReads read Rep := by
          rcases hr with hr | hr
          · exact hr.toBoundedReads
          · exact hr.toBoundedReads
        obtain ⟨ds, rs, k1, k2⟩ := streamCopyLoop_ok hb data.length chunk hc fuel 0 s w1 data m hs
          (by omega) hm
        refine ⟨ds, rs, k1, ?_⟩
        rw [k2, List.take_of_length_le (by omega)]
  · rw [if_neg ht] at h; simp at h

/-- The pieces written are determined by the state they lead to. -/
theorem writeNew_emit {H : Hash} {zl : Zlib} {fuel : Nat} {plan : List WriteOutcome}
    {read : σ → Int → σ × Res Bytes} {Rep : σ → Bytes → Prop}
    (hr : FileReads read Rep ∨ ObjectReads read Rep) {i : IStream σ} {data : Bytes}
    (hs : Rep i.strm data) (hsz : i.size = data.length)
    (h : (writeNew H zl fuel plan read i).2.2.1 = .ok ()) :
    ∃ ds : List Bytes, ds.flatten = i.type ++ [0x20] ++ natToDec data.length ++ [0] ++ data ∧
      (writeNew H zl fuel plan read i).1.flatten = zl.emit (zl.cinit 1) ds ∧
      (writeNew H zl fuel plan read i).2.2.2 = binToHex (H.digest ds.flatten) := by
  unfold writeNew at *
  simp only at *
  rw [hsz] at *
  rcases hr' : writeObject fuel i.type data.length read fdWrite looseChunk i.strm
    (FDCompressedSha1Writer.new zl { plan := plan }) with ⟨s, w, e | n⟩
  · rw [hr'] at h; simpa using (afterClose_ok h).1
  · obtain ⟨ds, rs, h1, h2, h3⟩ := writeObject_ok (write := fdWrite (zl := zl)) hr (by decide : 1 ≤ looseChunk)
      hs (n := n) (by rw [hr'])
    rw [hr'] at h h1
    simp only at h h1 ⊢
    obtain ⟨rs', h5⟩ := fdWrite_many ds _ _ _ h1
    rcases hc : w.close with ⟨w', e' | u⟩
    · rw [hc] at h; simp [afterClose] at h
    · obtain ⟨_, k2, k3, _⟩ := fd_writeMany ds _ _ _ _ h5 hc
      have hcont : w'.fd.chunks.flatten = zl.emit (zl.cinit 1) ds := by
        have : w'.fd.content = w'.fd.chunks.flatten := rfl
        rw [← this, k3]; simp [FDCompressedSha1Writer.new, Fd.content]
      refine ⟨ds, h2, hcont, ?_⟩
      simp [Sha1Writer.sha, k2, FDCompressedSha1Writer.new]

theorem writeNew_data {H : Hash} {zl : Zlib} (L : ZlibLaws zl) {fuel : Nat} {plan : List WriteOutcome}
    {read : σ → Int → σ × Res Bytes} {Rep : σ → Bytes → Prop}
    (hr : FileReads read Rep ∨ ObjectReads read Rep) {i : IStream σ} {data : Bytes}
    (hs : Rep i.strm data) (hsz : i.size = data.length)
    (h : (writeNew H zl fuel plan read i).2.2.1 = .ok ()) :
    ∃ x : Bytes, x = i.type ++ [0x20] ++ natToDec data.length ++ [0] ++ data ∧
      IsZip zl (writeNew H zl fuel plan read i).1.flatten
        (writeNew H zl fuel plan read i).1.flatten.length x ∧
      (writeNew H zl fuel plan read i).2.2.2 = binToHex (H.digest x) := by
  obtain ⟨ds, h1, h2, h3⟩ := writeNew_emit hr hs hsz h
  refine ⟨_, h1.symm ▸ rfl, ?_, h3⟩
  rw [h2]; exact ⟨L.emit_stop 1 ds, L.emit_out 1 ds⟩

/-! ### runs -/

theorem Fs.run_append (fs : Fs) (a b : List Ev) : fs.run (a ++ b) =
    match fs.run a with
    | some fs => fs.run b
    | none => none := by
  induction a generalizing fs with
  | nil => rfl
  | cons e a ih =>
    simp only [List.cons_append, Fs.run]
    rcases fs.step e with _ | fs1
    · rfl
    · exact ih fs1

theorem Fs.set_set (fs : Fs) (p : Path) (a b : Option Node) : (fs.set p a).set p b = fs.set p b := by
  funext q; unfold Fs.set; split <;> rfl

theorem Fs.set_self (fs : Fs) (p : Path) (n : Option Node) (h : fs p = n) : fs.set p n = fs := by
  funext q; unfold Fs.set; split
  · rename_i hq; rw [hq, h]
  · rfl

theorem Fs.set_comm (fs : Fs) {p q : Path} (a b : Option Node) (h : p ≠ q) :
    (fs.set p a).set q b = (fs.set q b).set p a := by
  funext r
  unfold Fs.set
  by_cases hq : r = q
  · by_cases hp : r = p
    · exact absurd (hp.symm.trans hq) h
    · rw [if_pos hq, if_neg hp, if_pos hq]
  · rw [if_neg hq]
    by_cases hp : r = p
    · rw [if_pos hp, if_pos hp]
    · rw [if_neg hp, if_neg hp, if_neg hq]

theorem run_appends (tmp : Path) (ds : List Bytes) : ∀ (fs : Fs) (c : Bytes) (m : Nat),
    fs tmp = some (.file c m) →
    fs.run (ds.map (.append tmp)) = some (fs.set tmp (some (.file (c ++ ds.flatten) m))) := by
  induction ds with
  | nil => intro fs c m h; simp [Fs.run, Fs.set_self, h]
  | cons d ds ih =>
    intro fs c m h
    simp only [List.map_cons, Fs.run, Fs.step, h]
    rw [ih _ (c ++ d) m (Fs.set_same _ _ _), Fs.set_set]
    simp

theorem run_tmp {fs fs' : Fs} {tmp : Path} {ds : List Bytes}
    (h : fs.run (.create tmp :: ds.map (.append tmp)) = some fs') :
    fs tmp = none ∧ fs' = fs.set tmp (some (.file ds.flatten 0o600)) := by
  simp only [Fs.run, Fs.step] at h
  rcases hp : fs tmp with _ | n
  · simp only [hp] at h
    rw [run_appends tmp ds _ [] 0o600 (Fs.set_same _ _ _), Fs.set_set] at h
    exact ⟨rfl, by simpa using h.symm⟩
  · simp [hp] at h

theorem chmodLoop_ok {p : Path} : ∀ {n : Nat} {cs : List ChmodOutcome},
    (chmodLoop p n cs).2 = .ok () → (chmodLoop p n cs).1 = [.chmod p newObjectsMode]
  | 0, cs, h => by simp [chmodLoop] at h
  | n + 1, [], h => rfl
  | n + 1, .ok :: _, h => rfl
  | n + 1, .fail :: _, h => by simp [chmodLoop] at h
  | n + 1, .denied :: cs, h => by
    simp only [chmodLoop] at h ⊢; exact chmodLoop_ok h

theorem chmodLoop_error {p : Path} : ∀ {n : Nat} {cs : List ChmodOutcome} {e : Err},
    (chmodLoop p n cs).2 = .error e → (chmodLoop p n cs).1 = []
  | 0, cs, e, h => rfl
  | n + 1, [], e, h => by simp [chmodLoop] at h
  | n + 1, .ok :: _, e, h => by simp [chmodLoop] at h
  | n + 1, .fail :: _, e, h => rfl
  | n + 1, .denied :: cs, e, h => by
    simp only [chmodLoop] at h ⊢; exact chmodLoop_error h

/-- The file system after a store of `c` at `p`. -/
def storedFs (fs : Fs) (p : Path) (c : Bytes) (m : Nat) : Fs :=
  (fs.set p.dropLast (some .dir)).set p (some (.file c m))

theorem short_ne_tmp (rnd d : Bytes) (h : d.length ≤ 2) : tmpPath rnd ≠ [d] := by
  intro hh
  simp only [tmpPath, List.cons.injEq, and_true] at hh
  rw [← hh] at h
  simp only [List.length_append, List.length_cons] at h
  omega

theorem run_mkdir {fs fs' : Fs} {p : Path} {es : List Ev} (h : fs.run (.mkdir p :: es) = some fs') :
    (fs.set p (some .dir)).run es = some fs' ∧ (fs p = none ∨ fs p = some .dir) := by
  simp only [Fs.run, Fs.step] at h
  rcases hp : fs p with _ | _ | ⟨c, m⟩
  · simp only [hp] at h; exact ⟨h, Or.inl rfl⟩
  · simp only [hp] at h; rw [Fs.set_self _ _ _ hp]; exact ⟨h, Or.inr rfl⟩
  · simp [hp] at h

theorem run_isfile {fs fs' : Fs} {p : Path} {b : Bool} {es : List Ev}
    (h : fs.run (.isfile p b :: es) = some fs') :
    fs.run es = some fs' ∧ (b = true → IsFile fs p) := by
  simp only [Fs.run, Fs.step] at h
  rcases hp : fs p with _ | _ | ⟨c, m⟩ <;> cases b <;> simp only [hp] at h
  · exact ⟨h, by simp⟩
  · simp at h
  · exact ⟨h, by simp⟩
  · simp at h
  · exact ⟨h, by simp⟩
  · exact ⟨h, fun _ => ⟨c, m, hp⟩⟩

theorem run_remove {fs fs' : Fs} {p : Path} {es : List Ev} (h : fs.run (.remove p :: es) = some fs') :
    (fs.set p none).run es = some fs' := by
  simp only [Fs.run, Fs.step] at h
  rcases hp : fs p with _ | _ | ⟨c, m⟩ <;> simp only [hp] at h
  · simp at h
  · simp at h
  · exact h

theorem run_rename {fs fs' : Fs} {a b : Path} {c : Bytes} {m : Nat} {es : List Ev}
    (ha : fs a = some (.file c m)) (h : fs.run (.rename a b :: es) = some fs') :
    ((fs.set a none).set b (some (.file c m))).run es = some fs' := by
  simp only [Fs.run] at h
  rcases hs : fs.step (.rename a b) with _ | fs1
  · simp [hs] at h
  · simp only [hs] at h
    rw [step_rename ha hs] at h
    exact h

theorem run_chmod {fs fs' : Fs} {p : Path} {m : Nat} (h : fs.run [.chmod p m] = some fs') :
    ∃ c m', fs p = some (.file c m') ∧ fs' = fs.set p (some (.file c m)) := by
  simp only [Fs.run, Fs.step] at h
  rcases hp : fs p with _ | _ | ⟨c, m'⟩ <;> simp only [hp] at h
  · simp at h
  · simp at h
  · simp only [Option.some.injEq] at h
    exact ⟨c, m', rfl, h.symm⟩

/-- What `publish` does to a file system in which the temporary file has just been written. -/
theorem run_publish {fs fs' : Fs} {rnd d f c : Bytes} {env : StoreEnv} (hd : d.length ≤ 2)
    (ht : fs (tmpPath rnd) = none)
    (h : (fs.set (tmpPath rnd) (some (.file c 0o600))).run (publish env (tmpPath rnd) [d, f]).1 = some fs') :
    (env.mkdir = false ∧ fs' = fs.set (tmpPath rnd) (some (.file c 0o600))) ∨
    (env.move = false ∧
      fs' = (fs.set [d] (some .dir)).set (tmpPath rnd) (some (.file c 0o600))) ∨
    (∃ c' m m', ((publish env (tmpPath rnd) [d, f]).2 = .ok () → m = newObjectsMode) ∧
      fs' = storedFs fs [d, f] c' m ∧ (fs [d] = none ∨ fs [d] = some .dir) ∧
      ((env.isfile = true ∧ fs [d, f] = some (.file c' m')) ∨ (env.isfile = false ∧ c' = c))) := by
  have htd := short_ne_tmp rnd d hd
  have hdf : ([d] : Path) ≠ [d, f] := by simp
  have ht2 : tmpPath rnd ≠ [d, f] := tmp_ne_two rnd d f
  unfold publish at h ⊢
  by_cases h1 : env.mkdir = false
  · rw [if_pos h1] at h
    left; refine ⟨h1, ?_⟩
    simpa [Fs.run] using h.symm
  rw [if_neg h1] at h ⊢
  simp only [List.dropLast] at h ⊢
  by_cases h2 : env.move = false
  · rw [if_pos h2] at h
    obtain ⟨k1, k2⟩ := run_mkdir h
    obtain ⟨k3, k4⟩ := run_isfile k1
    right; left; refine ⟨h2, ?_⟩
    simp only [Fs.run, Option.some.injEq] at k3
    rw [← k3, Fs.set_comm _ _ _ htd]
  rw [if_neg h2] at h ⊢
  simp only [List.cons_append, List.nil_append] at h
  obtain ⟨k1, k2⟩ := run_mkdir h
  obtain ⟨k3, k4⟩ := run_isfile k1
  rw [Fs.set_other _ _ (Ne.symm htd)] at k2
  right; right
  have fin : ∀ (g : Fs) (c' : Bytes) (m' : Nat), g [d, f] = some (.file c' m') →
      g.run (chmodLoop [d, f] 14 env.chmods).1 = some fs' →
      ∃ m, ((chmodLoop [d, f] 14 env.chmods).2 = .ok () → m = newObjectsMode) ∧
        fs' = g.set [d, f] (some (.file c' m)) := by
    intro g c' m' hg hrun
    rcases hcl : (chmodLoop [d, f] 14 env.chmods).2 with e | u
    · rw [chmodLoop_error hcl] at hrun
      refine ⟨m', by simp, ?_⟩
      simp only [Fs.run, Option.some.injEq] at hrun
      rw [← hrun, Fs.set_self _ _ _ hg]
    · rw [chmodLoop_ok hcl] at hrun
      obtain ⟨c2, m2, hc2, he⟩ := run_chmod hrun
      rw [hg] at hc2
      simp only [Option.some.injEq, Node.file.injEq] at hc2
      exact ⟨newObjectsMode, fun _ => rfl, by rw [he, hc2.1]⟩
  cases hif : env.isfile
  · rw [hif] at k3
    simp only [Bool.false_eq_true, if_false] at k3
    have hsrc : ((fs.set (tmpPath rnd) (some (.file c 0o600))).set [d] (some .dir)) (tmpPath rnd) =
        some (.file c 0o600) := by
      rw [Fs.set_other _ _ htd, Fs.set_same]
    have k5 := run_rename hsrc k3
    obtain ⟨m, hm, he⟩ := fin _ c 0o600 (Fs.set_same _ _ _) k5
    refine ⟨c, m, 0, hm, ?_, k2, Or.inr ⟨rfl, rfl⟩⟩
    rw [he, Fs.set_set, storedFs]
    congr 1
    rw [Fs.set_comm _ _ _ htd, Fs.set_set, Fs.set_self]
    · rfl
    · rw [Fs.set_other _ _ htd]; exact ht
  · rw [hif] at k3 k4
    simp only [if_true] at k3
    have k5 := run_remove k3
    obtain ⟨c', m', hcm⟩ := k4 rfl
    rw [Fs.set_other _ _ (Ne.symm hdf), Fs.set_other _ _ (Ne.symm ht2)] at hcm
    have hback : ((fs.set (tmpPath rnd) (some (.file c 0o600))).set [d] (some .dir)).set (tmpPath rnd) none =
        fs.set [d] (some .dir) := by
      rw [Fs.set_comm _ _ _ htd, Fs.set_set, Fs.set_self]
      rw [Fs.set_other _ _ htd]; exact ht
    rw [hback] at k5
    obtain ⟨m, hm, he⟩ := fin _ c' m' (by rw [Fs.set_other _ _ (Ne.symm hdf)]; exact hcm) k5
    exact ⟨c', m, m', hm, he, k2, Or.inl ⟨rfl, hcm⟩⟩

/-- The pieces of a store: what it writes to the temporary file, with which outcome, and the name
computed by the writer. -/
def looseWrite (H : Hash) (zl : Zlib) (fuel : Nat) (env : StoreEnv) (read : σ → Int → σ × Res Bytes)
    (i : IStream σ) : List Bytes × σ × Res Unit × Bytes :=
  match i.binsha with
  | none => writeNew H zl fuel env.plan read i
  | some _ => let r := writeRaw fuel env.plan read i; (r.1, r.2.1, r.2.2, [])

theorem looseStore_eq (H : Hash) (zl : Zlib) (fuel : Nat) (env : StoreEnv)
    (read : σ → Int → σ × Res Bytes) (i : IStream σ) (rnd : Bytes) (hr : env.tmp = some rnd) :
    looseStore H zl fuel env read i =
      (let w := looseWrite H zl fuel env read i
       let j : IStream σ := { i with strm := w.2.1 }
       let evs := .create (tmpPath rnd) :: w.1.map (.append (tmpPath rnd))
       match w.2.2.1 with
       | .error e =>
         if env.cleanup then (evs ++ [.remove (tmpPath rnd)], j, .error e) else (evs, j, .error .osError)
       | .ok () =>
         match storedName i.binsha w.2.2.2 with
         | .error e => (evs, j, .error e)
         | .ok hexsha =>
           let p := publish env (tmpPath rnd) (objectPath hexsha)
           match p.2 with
           | .error e => (evs ++ p.1, j, .error e)
           | .ok () =>
             match hexToBin hexsha with
             | .error e => (evs ++ p.1, j, .error e)
             | .ok b => (evs ++ p.1, { j with binsha := some b }, .ok ())) := by
  unfold looseStore looseWrite
  simp only [hr]
  rcases hb : i.binsha with _ | b
  · rfl
  · rfl

theorem storedName_shape {b : Option Bytes} {sha hex : Bytes} (h : storedName b sha = .ok hex) :
    hex = sha ∨ ∃ x, hex = binToHex x := by
  unfold storedName at h
  split at h
  · exact Or.inl (by simpa using h.symm)
  · simp at h
  · exact Or.inr ⟨_, by simpa using h.symm⟩

/-- Everything one store can do to a file system, by outcome. -/
theorem store_effect {H : Hash} {zl : Zlib} {fuel : Nat} {env : StoreEnv}
    {read : σ → Int → σ × Res Bytes} {i : IStream σ} {fs fs' : Fs}
    (h : fs.run (looseStore H zl fuel env read i).1 = some fs') :
    ((∃ e, (looseStore H zl fuel env read i).2.2 = .error e) ∧
      (fs' = fs ∨
        (∃ rnd c, env.tmp = some rnd ∧ fs (tmpPath rnd) = none ∧
          (env.cleanup = false ∨ i.binsha = some [] ∨ env.mkdir = false) ∧
          fs' = fs.set (tmpPath rnd) (some (.file c 0o600))) ∨
        (∃ rnd c d, env.tmp = some rnd ∧ fs (tmpPath rnd) = none ∧ d.length ≤ 2 ∧ env.move = false ∧
          fs' = (fs.set [d] (some .dir)).set (tmpPath rnd) (some (.file c 0o600))))) ∨
    (∃ hex c m, storedName i.binsha (looseWrite H zl fuel env read i).2.2.2 = .ok hex ∧
      (looseWrite H zl fuel env read i).2.2.1 = .ok () ∧
      fs' = storedFs fs (objectPath hex) c m ∧
      (fs (objectPath hex).dropLast = none ∨ fs (objectPath hex).dropLast = some .dir) ∧
      ((env.isfile = true ∧ ∃ m', fs (objectPath hex) = some (.file c m')) ∨
        (env.isfile = false ∧ c = (looseWrite H zl fuel env read i).1.flatten)) ∧
      (((looseStore H zl fuel env read i).2.2 = .ok () ∧ m = newObjectsMode ∧
          ∃ b, hexToBin hex = .ok b ∧ (looseStore H zl fuel env read i).2.1.binsha = some b) ∨
        (∃ e, (looseStore H zl fuel env read i).2.2 = .error e ∧
          ((chmodLoop (objectPath hex) 14 env.chmods).2 = .error e ∨ hexToBin hex = .error e)))) := by
  rcases ht : env.tmp with _ | rnd
  · left
    unfold looseStore at h ⊢
    rw [ht] at h ⊢
    simp only [Fs.run, Option.some.injEq] at h
    exact ⟨⟨_, rfl⟩, Or.inl h.symm⟩
  rw [looseStore_eq H zl fuel env read i rnd ht] at h ⊢
  simp only at h ⊢
  rcases hw : (looseWrite H zl fuel env read i).2.2.1 with e | u
  · left
    rw [hw] at h
    simp only at h ⊢
    by_cases hcl : env.cleanup = true
    · rw [if_pos hcl] at h ⊢
      refine ⟨⟨_, rfl⟩, Or.inl ?_⟩
      simp only [List.cons_append] at h
      rw [← List.cons_append, Fs.run_append] at h
      rcases h1 : fs.run (.create (tmpPath rnd) ::
        (looseWrite H zl fuel env read i).1.map (.append (tmpPath rnd))) with _ | fs1
      · rw [h1] at h; simp at h
      · obtain ⟨k1, k2⟩ := run_tmp h1
        rw [h1] at h
        simp only at h
        have h2 := run_remove h
        simp only [Fs.run, Option.some.injEq] at h2
        rw [← h2, k2, Fs.set_set, Fs.set_self _ _ _ k1]
    · rw [if_neg hcl] at h ⊢
      obtain ⟨k1, k2⟩ := run_tmp h
      exact ⟨⟨_, rfl⟩, Or.inr (Or.inl ⟨rnd, _, rfl, k1, Or.inl (by simpa using hcl), k2⟩)⟩
  · rw [hw] at h
    simp only at h ⊢
    rcases hn : storedName i.binsha (looseWrite H zl fuel env read i).2.2.2 with e | hex
    · left
      rw [hn] at h
      simp only at h ⊢
      obtain ⟨k1, k2⟩ := run_tmp h
      refine ⟨⟨_, rfl⟩, Or.inr (Or.inl ⟨rnd, _, rfl, k1, Or.inr (Or.inl ?_), k2⟩)⟩
      unfold storedName at hn
      split at hn
      · simp at hn
      · assumption
      · simp at hn
    · rw [hn] at h
      simp only at h ⊢
      have hrun : fs.run ((.create (tmpPath rnd) ::
          (looseWrite H zl fuel env read i).1.map (.append (tmpPath rnd))) ++
          (publish env (tmpPath rnd) (objectPath hex)).1) = some fs' := by
        rcases hp : (publish env (tmpPath rnd) (objectPath hex)).2 with e | u
        · rw [hp] at h; exact h
        · rw [hp] at h
          simp only at h
          rcases hb : hexToBin hex with e | b <;> rw [hb] at h <;> exact h
      rw [Fs.run_append] at hrun
      rcases h1 : fs.run (.create (tmpPath rnd) ::
        (looseWrite H zl fuel env read i).1.map (.append (tmpPath rnd))) with _ | fs1
      · rw [h1] at hrun; simp at hrun
      · obtain ⟨k1, k2⟩ := run_tmp h1
        rw [h1, k2] at hrun
        simp only at hrun
        have hd : (hex.take 2).length ≤ 2 := by simp; omega
        rcases run_publish (f := hex.drop 2) hd k1 hrun with ⟨g1, g2⟩ | ⟨g1, g2⟩ | ⟨c, m, m', g1, g2, g3, g4⟩
        · left
          have : (publish env (tmpPath rnd) (objectPath hex)) = ([], .error .osError) := by
            unfold publish; rw [if_pos g1]
          rw [this]
          exact ⟨⟨_, rfl⟩, Or.inr (Or.inl ⟨rnd, _, rfl, k1, Or.inr (Or.inr g1), g2⟩)⟩
        · left
          have : (publish env (tmpPath rnd) (objectPath hex)).2 = .error .osError := by
            unfold publish
            split
            · rfl
            · simp only [if_pos g1]
          rw [this]
          exact ⟨⟨_, rfl⟩, Or.inr (Or.inr ⟨rnd, _, _, rfl, k1, hd, g1, g2⟩)⟩
        · right
          refine ⟨hex, c, m, rfl, by simp, g2, g3, ?_, ?_⟩
          · rcases g4 with g4 | g4
            · exact Or.inl ⟨g4.1, m', g4.2⟩
            · exact Or.inr g4
          · rcases hp : (publish env (tmpPath rnd) (objectPath hex)).2 with e | u
            · right
              simp only
              refine ⟨e, rfl, ?_⟩
              left
              unfold publish at hp
              split at hp
              · exfalso
                rename_i hmk
                unfold publish at hrun
                rw [if_pos hmk] at hrun
                simp only [Fs.run, Option.some.injEq] at hrun
                rw [← hrun] at g2
                have := congrFun g2 (tmpPath rnd)
                rw [Fs.set_same, storedFs, Fs.set_other _ _ (tmp_ne_two _ _ _)] at this
                simp only [objectPath, List.dropLast] at this
                rw [Fs.set_other _ _ (short_ne_tmp _ _ hd), k1] at this
                simp at this
              · simp only at hp
                split at hp
                · exfalso
                  rename_i hmk hmv
                  unfold publish at hrun
                  rw [if_neg hmk] at hrun
                  simp only [if_pos hmv] at hrun
                  obtain ⟨q1, _⟩ := run_mkdir hrun
                  obtain ⟨q2, _⟩ := run_isfile q1
                  simp only [Fs.run, Option.some.injEq] at q2
                  rw [← q2] at g2
                  have := congrFun g2 (tmpPath rnd)
                  simp only [objectPath, List.dropLast] at this
                  rw [Fs.set_other _ _ (short_ne_tmp _ _ hd), Fs.set_same, storedFs,
                    Fs.set_other _ _ (tmp_ne_two _ _ _)] at this
                  simp only [List.dropLast] at this
                  rw [Fs.set_other _ _ (short_ne_tmp _ _ hd), k1] at this
                  simp at this
                · exact hp
            · simp only
              rcases hb : hexToBin hex with e | b
              · right; exact ⟨e, rfl, Or.inr rfl⟩
              · left; exact ⟨rfl, g1 hp, b, rfl, rfl⟩

end GitDB
