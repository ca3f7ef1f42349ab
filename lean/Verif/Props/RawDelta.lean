import Verif.Proofs.RawDelta
/-!
# C72: deltas whose announced sizes are wrong, and deltas of any other bytes

`DeltaApplyReader` believes the sizes at the beginning of a delta.  Here the deltas are arbitrary.
-/
set_option autoImplicit false

namespace GitDB.Props
open GitDB Spec

variable {σ : Type}

/-- **C72** whatever the streams are and do (no assumption about `read`): a reader that could be set up
announces the second number at the beginning of the topmost delta, and delivers exactly that many bytes,
however it is read. -/
theorem C72_size (fuel : Nat) (read : σ → Int → σ × Res Bytes) (top : σ × Nat)
    (rest : List (σ × Nat)) (r : DeltaReader) (h : newDeltaReader fuel read (top :: rest) = .ok r) :
    (∃ src tgt tail, (read top.1 512).2 = .ok (src ++ (tgt ++ tail)) ∧ Terminated src ∧
      Terminated tgt ∧ r.size = leValue tgt) ∧
    ∃ content : Bytes, content.length = r.size ∧ ∀ ns : List Int, ∃ r' ps,
      readMany (fun (r : DeltaReader) n => ((r.read n).1, .ok (r.read n).2)) r ns = (r', .ok ps) ∧
      ps.flatten = content.take (readLen content.length ns) := by
  have hform : ∃ ds base, rest = ds ++ [base] ∧ ∃ t, setCacheBrute fuel read (top :: ds) base =
      .ok (t, r.size) ∧ r = ⟨t, r.size, 0⟩ := by
    unfold newDeltaReader at h
    rcases hrev : rest.reverse with _ | ⟨b, bs⟩
    · have : rest = [] := by simpa using hrev
      subst this
      simp at h
    · have hr : rest = bs.reverse ++ [b] := by
        rw [← List.reverse_reverse rest, hrev, List.reverse_cons]
      subst hr
      refine ⟨bs.reverse, b, rfl, ?_⟩
      have he : (top :: (bs.reverse ++ [b])).reverse = b :: (bs ++ [top]) := by simp
      rw [he] at h
      rcases hx : bs ++ [top] with _ | ⟨d, ds⟩
      · simp at hx
      · rw [hx] at h
        simp only [← hx, List.reverse_append, List.reverse_singleton, List.singleton_append, bind,
          Except.bind, pure, Except.pure] at h
        split at h
        · cases h
        · rename_i v hv
          obtain ⟨t, n⟩ := v
          cases h
          exact ⟨t, hv, rfl⟩
  obtain ⟨ds, base, rfl, t, hset, hr⟩ := hform
  obtain ⟨⟨i, hi, hn⟩, hl, hp⟩ := setCacheBrute_keeps fuel read top ds base t r.size hset
  refine ⟨?_, t.data.take r.size, ?_, fun ns => ?_⟩
  · unfold readDeltaHead at hi
    rcases hread : read top.1 512 with ⟨s, e | buf⟩
    · rw [hread] at hi; cases hi
    · rw [hread] at hi
      simp only [bind, Except.bind, pure, Except.pure] at hi
      rcases two_numbers buf with ⟨src, tgt, tail, hb, hs, ht, m1, m2⟩ | hm | ⟨k, v, m1, m2⟩
      · rw [m1] at hi
        simp only [m2] at hi
        cases hi
        exact ⟨src, tgt, tail, by rw [hb], hs, ht, hn.symm⟩
      · rw [hm] at hi; cases hi
      · rw [m1] at hi
        simp only [m2] at hi
        cases hi
  · rw [List.length_take]; omega
  · have hcl : (t.data.take r.size).length = r.size := by rw [List.length_take]; omega
    obtain ⟨r', ps, h3, h4, _⟩ := readMany_spec (deltaReader_objectReads (t.data.take r.size)) ns r
      (t.data.take r.size) (by
        rw [hr]
        refine ⟨hcl.symm, ?_, hp, Nat.zero_le _, by simp⟩
        simp only [hcl])
    exact ⟨r', ps, h3, h4⟩

/-- The head of a chain with the base at its end. -/
theorem newDeltaReader_snoc (fuel : Nat) (read : σ → Int → σ × Res Bytes) (ss : List (σ × Nat))
    (hne : ss ≠ []) (base : σ × Nat) :
    newDeltaReader fuel read (ss ++ [base]) =
      (setCacheBrute fuel read ss base).map fun x => ⟨x.1, x.2, 0⟩ := by
  unfold newDeltaReader
  rw [List.reverse_append, List.reverse_singleton, List.singleton_append]
  rcases hrev : ss.reverse with _ | ⟨x, xs⟩
  · exact absurd (by simpa using hrev) hne
  · simp only [← hrev, List.reverse_reverse, bind, Except.bind, pure, Except.pure]
    rcases setCacheBrute fuel read ss base with e | ⟨t, n⟩ <;> rfl

/-- **C72** chains of any deltas that begin with two numbers, over any base: either the reader delivers
what the deltas leave behind in two memory areas that are as large as the largest size announced (and,
with several deltas, as the base), cut to the size the topmost delta announces; or one of the deltas is
malformed, or produces more than the memory holds, and its exception is raised. -/
theorem C72_chain (read : σ → Int → σ × Res Bytes) (Rep : σ → Bytes → Prop)
    (hr : ObjectReads read Rep) (base : Bytes) (ds : List RawDelta) (top : RawDelta)
    (hh : ∀ d ∈ ds ++ [top], d.Headed) (bs : σ) (hbs : Rep bs base) (ss : List (σ × Nat))
    (hss : All2 (fun d (s : σ × Nat) => Rep s.1 d.bytes ∧ s.2 = d.bytes.length)
      (ds ++ [top]).reverse ss) :
    let mem := memorySizes base.length (ds ++ [top])
    let start := base ++ blank (mem.1 - base.length)
    let grow := decide (mem.2 = 0)
    ∃ F, ∀ fuel, F ≤ fuel →
      (∃ r res, newDeltaReader fuel read (ss ++ [(bs, base.length)]) = .ok r ∧
        Replay grow start (blank mem.2) (ds ++ [top]) res ∧ r.size = leValue top.tgt ∧
        DeltaReader.Delivers (res.take (leValue top.tgt)) r (res.take (leValue top.tgt))) ∨
      (∃ e, newDeltaReader fuel read (ss ++ [(bs, base.length)]) = .error e ∧
        (∀ res, ¬ Replay grow start (blank mem.2) (ds ++ [top]) res) ∧
        Refused grow start (blank mem.2) (ds ++ [top]) e) := by
  intro mem start grow
  obtain ⟨F, hF⟩ := setCacheBrute_raw hr base ds top hh bs hbs ss hss
  refine ⟨F, fun fuel hf => ?_⟩
  have hrev : (ds ++ [top]).reverse = top :: ds.reverse := by simp
  have hcons : ∃ s0 ss0, ss = s0 :: ss0 := by
    rw [hrev] at hss
    cases hss with
    | cons _ _ => exact ⟨_, _, rfl⟩
  obtain ⟨s0, ss0, rfl⟩ := hcons
  have hsn := newDeltaReader_snoc fuel read (s0 :: ss0) (by simp) (bs, base.length)
  rcases hF fuel hf with ⟨t, e1, e2, e3⟩ | ⟨e, he, e1, e2, e3⟩
  · rw [e1] at hsn
    refine .inl ⟨⟨t, leValue top.tgt, 0⟩, t.data, hsn, e2, rfl, ?_⟩
    have hk := setCacheBrute_keeps fuel read s0 ss0 (bs, base.length) t _ e1
    have hcl : (t.data.take (leValue top.tgt)).length = leValue top.tgt := by
      rw [List.length_take]; omega
    refine ⟨hcl.symm, by simp only [hcl], e3, Nat.zero_le _, by simp⟩
  · rw [e1] at hsn
    exact .inr ⟨e, hsn, e2, e3⟩

/-- **C72** whatever the bytes of the deltas are: the result is a reader or one of three exceptions. -/
theorem C72_exceptions (read : σ → Int → σ × Res Bytes) (Rep : σ → Bytes → Prop)
    (hr : ObjectReads read Rep) (base : Bytes) (cs : List Bytes) (hne : cs ≠ []) (bs : σ)
    (hbs : Rep bs base) (ss : List (σ × Nat))
    (hss : All2 (fun (c : Bytes) (s : σ × Nat) => Rep s.1 c ∧ s.2 = c.length) cs ss) :
    ∃ F, ∀ fuel, F ≤ fuel →
      (∃ r, newDeltaReader fuel read (ss ++ [(bs, base.length)]) = .ok r) ∨
      newDeltaReader fuel read (ss ++ [(bs, base.length)]) = .error .valueError ∨
      newDeltaReader fuel read (ss ++ [(bs, base.length)]) = .error .indexError ∨
      newDeltaReader fuel read (ss ++ [(bs, base.length)]) = .error .assertionError := by
  have hexc : ∀ {fuel : Nat} {e : Err}, DeltaExc e →
      newDeltaReader fuel read (ss ++ [(bs, base.length)]) = .error e →
      newDeltaReader fuel read (ss ++ [(bs, base.length)]) = .error .valueError ∨
      newDeltaReader fuel read (ss ++ [(bs, base.length)]) = .error .indexError ∨
      newDeltaReader fuel read (ss ++ [(bs, base.length)]) = .error .assertionError := by
    rintro fuel e (rfl | rfl | rfl) h
    · exact .inl h
    · exact .inr (.inl h)
    · exact .inr (.inr h)
  have hssne : ss ≠ [] := by
    cases hss with
    | nil => exact absurd rfl hne
    | cons _ _ => simp
  rcases readDeltaHeads_any hr cs ss hss with ⟨ds, hds, rfl⟩ | ⟨e, he, hx⟩
  · cases ds with
    | nil => exact absurd rfl hne
    | cons top ds =>
      have hss' : All2 (fun d (s : σ × Nat) => Rep s.1 (RawDelta.bytes d) ∧
          s.2 = (RawDelta.bytes d).length) (top :: ds) ss := by
        generalize top :: ds = l at hss
        clear hne hds hexc hssne
        induction l generalizing ss with
        | nil => cases hss; exact .nil
        | cons x xs ih =>
          cases hss with
          | cons h1 h2 => exact .cons h1 (ih _ h2)
      obtain ⟨F, hF⟩ := setCacheBrute_raw hr base ds.reverse top
        (fun d hd => hds d (by simp at hd; rcases hd with h | h <;> simp [h])) bs hbs ss
        (by simpa using hss')
      refine ⟨F, fun fuel hf => ?_⟩
      have hsn := newDeltaReader_snoc fuel read ss hssne (bs, base.length)
      rcases hF fuel hf with ⟨t, e1, _, _⟩ | ⟨e, he, e1, _, _⟩
      · rw [e1] at hsn
        exact .inl ⟨_, hsn⟩
      · rw [e1] at hsn
        exact .inr (hexc he hsn)
  · refine ⟨0, fun fuel _ => .inr (hexc he ?_)⟩
    rw [newDeltaReader_snoc fuel read ss hssne]
    simp only [setCacheBrute, hx, bind, Except.bind]
    rfl

/-! ## What that means -/

/-- One delta over a base. -/
theorem one_delta (read : σ → Int → σ × Res Bytes) (Rep : σ → Bytes → Prop)
    (hr : ObjectReads read Rep) (base : Bytes) (d : RawDelta) (hd : d.Headed) (bs ds : σ)
    (hbs : Rep bs base) (hds : Rep ds d.bytes) (out : Bytes)
    (ha : Applies (leValue d.src) base d.body out) :
    ∃ F, ∀ fuel, F ≤ fuel →
      if leValue d.tgt ≠ 0 ∧ leValue d.tgt < out.length then
        newDeltaReader fuel read [(ds, d.bytes.length), (bs, base.length)] = .error .valueError
      else ∃ r, newDeltaReader fuel read [(ds, d.bytes.length), (bs, base.length)] = .ok r ∧
        DeltaReader.Delivers ((writtenOver out (blank (leValue d.tgt))).take (leValue d.tgt)) r
          ((writtenOver out (blank (leValue d.tgt))).take (leValue d.tgt)) := by
  obtain ⟨F, hF⟩ := C72_chain read Rep hr base [] d (by simpa using hd) bs hbs [(ds, d.bytes.length)]
    (.cons ⟨hds, rfl⟩ .nil)
  refine ⟨F, fun fuel hf => ?_⟩
  have hm : memorySizes base.length [d] = (base.length, leValue d.tgt) := by
    simp [memorySizes, largest]
  have h := hF fuel hf
  simp only [List.nil_append, List.cons_append, hm, Nat.sub_self] at h
  have hb0 : base ++ blank 0 = base := by simp [blank]
  rw [hb0] at h
  have hbl : (blank (leValue d.tgt)).length = leValue d.tgt := by simp [blank]
  by_cases hc : leValue d.tgt ≠ 0 ∧ leValue d.tgt < out.length
  · rw [if_pos hc]
    have hg : decide (leValue d.tgt = 0) = false := by simp [hc.1]
    rcases h with ⟨r, res, e1, e2, _⟩ | ⟨e, e1, e2, e3⟩
    · exfalso
      cases e2 with
      | cons _ _ out' _ _ _ ha' hfit _ =>
        have := applies_unique ha ha'
        subst this
        rcases hfit with h | h
        · rw [hg] at h; cases h
        · omega
    · cases e3 with
      | malformed _ _ _ _ _ step _ => exact absurd ha (step out)
      | overrun => exact e1
      | later _ _ _ _ _ _ _ _ rest => cases rest
  · rw [if_neg hc]
    have hfit : decide (leValue d.tgt = 0) = true ∨ out.length ≤ (blank (leValue d.tgt)).length := by
      by_cases h0 : leValue d.tgt = 0
      · left; simp [h0]
      · right; rw [hbl]; exact Nat.le_of_not_lt fun hh => hc ⟨h0, hh⟩
    rcases h with ⟨r, res, e1, e2, e3, e4⟩ | ⟨e, e1, e2, _⟩
    · cases e2 with
      | cons _ _ out' _ _ _ ha' _ hrest =>
        have := applies_unique ha ha'
        subst this
        cases hrest
        exact ⟨r, e1, e4⟩
    · exact absurd (Replay.cons _ _ _ _ _ _ ha hfit (.nil _ _)) (e2 _)

/-- **C72** one delta that produces less than it announces: the object is filled up with zero bytes. -/
theorem C72_short_filled (read : σ → Int → σ × Res Bytes) (Rep : σ → Bytes → Prop)
    (hr : ObjectReads read Rep) (base : Bytes) (d : RawDelta) (hd : d.Headed) (bs ds : σ)
    (hbs : Rep bs base) (hds : Rep ds d.bytes) (is : List Instr)
    (hv : ∀ x ∈ is, x.Valid (leValue d.src)) (hb : d.body = encodeAll is)
    (hl : (runAll base is).length ≤ leValue d.tgt) :
    ∃ F, ∀ fuel, F ≤ fuel → ∃ r,
      newDeltaReader fuel read [(ds, d.bytes.length), (bs, base.length)] = .ok r ∧
      (r.read 0).2 = runAll base is ++ List.replicate (leValue d.tgt - (runAll base is).length) 0 := by
  obtain ⟨F, hF⟩ := one_delta read Rep hr base d hd bs ds hbs hds (runAll base is)
    ⟨is, [], hv, by simpa using hb, rfl, .inl rfl⟩
  refine ⟨F, fun fuel hf => ?_⟩
  have h := hF fuel hf
  rw [if_neg (by omega)] at h
  obtain ⟨r, e1, e2⟩ := h
  refine ⟨r, e1, ?_⟩
  obtain ⟨_, h2, _⟩ := (deltaReader_objectReads _).read_all r _ 0 e2 (by omega)
  injection h2 with _ h2
  injection h2 with h2
  rw [h2, writtenOver, blank, List.drop_replicate]
  exact List.take_of_length_le (by simp; omega)

/-- **C72** one delta that produces more than it announces: `ValueError`, unless it announces nothing. -/
theorem C72_long_refused (read : σ → Int → σ × Res Bytes) (Rep : σ → Bytes → Prop)
    (hr : ObjectReads read Rep) (base : Bytes) (d : RawDelta) (hd : d.Headed) (bs ds : σ)
    (hbs : Rep bs base) (hds : Rep ds d.bytes) (is : List Instr)
    (hv : ∀ x ∈ is, x.Valid (leValue d.src)) (hb : d.body = encodeAll is)
    (hl : leValue d.tgt < (runAll base is).length) :
    ∃ F, ∀ fuel, F ≤ fuel →
      if leValue d.tgt = 0 then ∃ r,
        newDeltaReader fuel read [(ds, d.bytes.length), (bs, base.length)] = .ok r ∧ r.size = 0 ∧
          (r.read 0).2 = []
      else newDeltaReader fuel read [(ds, d.bytes.length), (bs, base.length)] = .error .valueError := by
  obtain ⟨F, hF⟩ := one_delta read Rep hr base d hd bs ds hbs hds (runAll base is)
    ⟨is, [], hv, by simpa using hb, rfl, .inl rfl⟩
  refine ⟨F, fun fuel hf => ?_⟩
  have h := hF fuel hf
  by_cases h0 : leValue d.tgt = 0
  · rw [if_pos h0]
    rw [if_neg (by omega)] at h
    obtain ⟨r, e1, e2⟩ := h
    refine ⟨r, e1, ?_, ?_⟩
    · have := e2.1
      rw [h0] at this
      simpa using this
    · obtain ⟨_, h2, _⟩ := (deltaReader_objectReads _).read_all r _ 0 e2 (by omega)
      injection h2 with _ h2
      injection h2 with h2
      rw [h2, h0, List.take_zero]
  · rw [if_neg h0]
    rw [if_pos ⟨h0, hl⟩] at h
    exact h

/-- **C72** a last copy from outside the announced source: its bytes read as zeros, and the object has the
size that was announced. -/
theorem C72_outside_copy_zeros (read : σ → Int → σ × Res Bytes) (Rep : σ → Bytes → Prop)
    (hr : ObjectReads read Rep) (base : Bytes) (d : RawDelta) (hd : d.Headed) (bs ds : σ)
    (hbs : Rep bs base) (hds : Rep ds d.bytes) (is : List Instr)
    (hv : ∀ x ∈ is, x.Valid (leValue d.src)) (o0 o1 o2 o3 s0 s1 s2 : Option UInt8)
    (hb : d.body = encodeAll (is ++ [.copy o0 o1 o2 o3 s0 s1 s2]))
    (ho : leValue d.src < copyOff o0 o1 o2 o3 + copySize s0 s1 s2)
    (hl : leValue d.tgt = (runAll base is).length + copySize s0 s1 s2) :
    ∃ F, ∀ fuel, F ≤ fuel → ∃ r,
      newDeltaReader fuel read [(ds, d.bytes.length), (bs, base.length)] = .ok r ∧
      (r.read 0).2 = runAll base is ++ List.replicate (copySize s0 s1 s2) 0 := by
  obtain ⟨F, hF⟩ := one_delta read Rep hr base d hd bs ds hbs hds (runAll base is)
    ⟨is, (Instr.copy o0 o1 o2 o3 s0 s1 s2).encode, hv, by rw [hb]; simp [encodeAll], rfl,
      .inr ⟨o0, o1, o2, o3, s0, s1, s2, rfl, ho⟩⟩
  refine ⟨F, fun fuel hf => ?_⟩
  have h := hF fuel hf
  rw [if_neg (by omega)] at h
  obtain ⟨r, e1, e2⟩ := h
  refine ⟨r, e1, ?_⟩
  obtain ⟨_, h2, _⟩ := (deltaReader_objectReads _).read_all r _ 0 e2 (by omega)
  injection h2 with _ h2
  injection h2 with h2
  rw [h2, writtenOver, blank, List.drop_replicate, hl, Nat.add_sub_cancel_left]
  exact List.take_of_length_le (by simp)

/-- **C72** two deltas, of which the upper one produces less than it announces: the object is filled up
with bytes of the base of the chain, which lie where the second result is written. -/
theorem C72_two_stale (read : σ → Int → σ × Res Bytes) (Rep : σ → Bytes → Prop)
    (hr : ObjectReads read Rep) (base : Bytes) (d1 d2 : RawDelta) (hd1 : d1.Headed) (hd2 : d2.Headed)
    (bs s1 s2 : σ) (hbs : Rep bs base) (h1 : Rep s1 d1.bytes) (h2 : Rep s2 d2.bytes)
    (is1 is2 : List Instr) (hv1 : ∀ x ∈ is1, x.Valid (leValue d1.src))
    (hv2 : ∀ x ∈ is2, x.Valid (leValue d2.src)) (hb1 : d1.body = encodeAll is1)
    (hb2 : d2.body = encodeAll is2) (hs1 : leValue d1.src ≤ base.length)
    (hl1 : (runAll base is1).length = leValue d1.tgt) (hs2 : leValue d2.src = leValue d1.tgt)
    (hl2 : (runAll (runAll base is1) is2).length ≤ leValue d2.tgt)
    (ht : leValue d2.tgt ≤ base.length) :
    ∃ F, ∀ fuel, F ≤ fuel → ∃ r,
      newDeltaReader fuel read [(s2, d2.bytes.length), (s1, d1.bytes.length), (bs, base.length)] =
        .ok r ∧
      (r.read 0).2 = runAll (runAll base is1) is2 ++
        (base.take (leValue d2.tgt)).drop (runAll (runAll base is1) is2).length := by
  -- instructions that are valid for the first `n` bytes see only those
  have runTake : ∀ (n : Nat) (a b : Bytes) (is : List Instr), (∀ x ∈ is, x.Valid n) →
      a.take n = b.take n → runAll a is = runAll b is := by
    intro n a b is
    induction is with
    | nil => intro _ _; rfl
    | cons x xs ih =>
      intro hv hab
      have h := ih (fun y hy => hv y (by simp [hy])) hab
      have hx : x.run a = x.run b := by
        cases x with
        | insert d => rfl
        | copy o0 o1 o2 o3 s0 s1 s2 =>
          have hval := hv _ (List.mem_cons_self)
          simp only [Instr.Valid] at hval
          have e : ∀ c : Bytes, (c.drop (copyOff o0 o1 o2 o3)).take (copySize s0 s1 s2) =
              ((c.take n).drop (copyOff o0 o1 o2 o3)).take (copySize s0 s1 s2) := by
            intro c
            rw [List.drop_take, List.take_take, Nat.min_eq_left (by omega)]
          simp only [Instr.run]
          rw [e a, e b, hab]
      simp only [runAll, List.flatMap_cons] at h ⊢
      rw [h, hx]
  obtain ⟨F, hF⟩ := C72_chain read Rep hr base [d1] d2 (by
    intro d hd; simp at hd; rcases hd with rfl | rfl <;> assumption) bs hbs
    [(s2, d2.bytes.length), (s1, d1.bytes.length)] (.cons ⟨h2, rfl⟩ (.cons ⟨h1, rfl⟩ .nil))
  refine ⟨F, fun fuel hf => ?_⟩
  have h := hF fuel hf
  simp only [List.cons_append, List.nil_append] at h
  obtain ⟨m1, hm, hM1, hM2⟩ : ∃ m, memorySizes base.length [d1, d2] = (m, m) ∧ base.length ≤ m ∧
      leValue d1.tgt ≤ m :=
    ⟨max base.length (max (max 0 (leValue d1.tgt)) (leValue d2.tgt)), rfl, by omega, by omega⟩
  simp only [hm] at h
  have hbl : (blank m1).length = m1 := by simp [blank]
  -- the two steps
  have a1 : Applies (leValue d1.src) (base ++ blank (m1 - base.length)) d1.body (runAll base is1) := by
    refine ⟨is1, [], hv1, by simpa using hb1, ?_, .inl rfl⟩
    apply runTake (leValue d1.src) _ _ _ hv1
    rw [List.take_append_of_le_length hs1]
  have a2 : Applies (leValue d2.src) (writtenOver (runAll base is1) (blank m1)) d2.body
      (runAll (runAll base is1) is2) := by
    refine ⟨is2, [], hv2, by simpa using hb2, ?_, .inl rfl⟩
    apply runTake (leValue d2.src) _ _ _ hv2
    rw [writtenOver, List.take_append_of_le_length (by omega)]
  have hstart : (base ++ blank (m1 - base.length)).length = m1 := by simp [blank]; omega
  have hrep : ∀ g : Bool, Replay g (base ++ blank (m1 - base.length)) (blank m1) [d1, d2]
      (writtenOver (runAll (runAll base is1) is2) (base ++ blank (m1 - base.length))) := fun g =>
    .cons _ _ _ _ _ _ a1 (.inr (by omega)) (.cons _ _ _ _ _ _ a2 (.inr (by omega)) (.nil _ _))
  rcases h with ⟨r, res, e1, e2, e3, e4⟩ | ⟨e, e1, e2, _⟩
  · refine ⟨r, e1, ?_⟩
    have hres : res = writtenOver (runAll (runAll base is1) is2) (base ++ blank (m1 - base.length)) := by
      cases e2 with
      | cons _ _ o1 _ _ _ b1 _ e2 =>
        rw [← applies_unique a1 b1] at e2
        cases e2 with
        | cons _ _ o2 _ _ _ b2 _ e2 =>
          rw [← applies_unique a2 b2] at e2
          cases e2
          rfl
    obtain ⟨_, h2, _⟩ := (deltaReader_objectReads _).read_all r _ 0 e4 (by omega)
    injection h2 with _ h2
    injection h2 with h2
    rw [h2, hres, writtenOver, List.take_append, List.take_of_length_le hl2, List.drop_take]
    congr 1
    rw [List.drop_append_of_le_length (by omega), List.take_append_of_le_length]
    rw [List.length_drop]; omega
  · exact absurd (hrep _) (e2 _)

/-! ## Examples -/

/-- announces 3 bytes, inserts 1 -/
example : (newDeltaReader 9 objRead [([2, 3, 1, 7], 4), ([65, 66], 2)]).map (fun r => (r.read 0).2) =
    .ok [7, 0, 0] := by decide +kernel
example : RawDelta.Headed ⟨[2], [3], [1, 7]⟩ :=
  ⟨⟨[], 2, rfl, by simp, by decide⟩, ⟨[], 3, rfl, by simp, by decide⟩, by decide⟩
example : (runAll [65, 66] [.insert [7]]).length ≤ leValue [3] := by decide
/-- announces 1 byte, inserts 2 -/
example : newDeltaReader 9 objRead [([2, 1, 2, 7, 8], 5), ([65, 66], 2)] = .error .valueError := by
  decide +kernel
/-- announces nothing, inserts 2 -/
example : (newDeltaReader 9 objRead [([2, 0, 2, 7, 8], 5), ([65, 66], 2)]).map
    (fun r => (r.size, (r.read 0).2)) = .ok (0, []) := by decide +kernel
/-- insert 1 byte, copy 2 bytes at offset 9 of a source of 2 -/
example : (newDeltaReader 9 objRead [([2, 3, 1, 7, 0x91, 9, 2], 7), ([65, 66], 2)]).map
    (fun r => (r.read 0).2) = .ok [7, 0, 0] := by decide +kernel
/-- the lower delta inserts `x`, the upper one inserts `y` and announces three bytes: two of the base
shine through -/
example : (newDeltaReader 9 objRead [([1, 3, 1, 121], 4), ([4, 1, 1, 120], 4), ([65, 66, 67, 68], 4)]).map
    (fun r => (r.read 0).2) = .ok [121, 66, 67] := by decide +kernel
/-- and if the base is shorter, what is written does not exceed it -/
example : newDeltaReader 9 objRead [([1, 1, 5, 1, 2, 3, 4, 5], 8), ([4, 1, 1, 120], 4),
    ([65, 66, 67, 68], 4)] = .error .valueError := by decide +kernel
/-- four bytes written where one is announced fit into the memory of the base: cut without notice -/
example : (newDeltaReader 9 objRead [([1, 1, 4, 1, 2, 3, 4], 7), ([4, 1, 1, 120], 4),
    ([65, 66, 67, 68], 4)]).map (fun r => (r.read 0).2) = .ok [1] := by decide +kernel
/-- no number, and half a head -/
example : newDeltaReader 9 objRead [([], 0), ([65], 1)] = .error .assertionError := by decide +kernel
example : newDeltaReader 9 objRead [([2], 1), ([65], 1)] = .error .indexError := by decide +kernel
example : newDeltaReader 9 objRead [([1, 1, 0], 3), ([65], 1)] = .error .valueError := by decide +kernel

end GitDB.Props
