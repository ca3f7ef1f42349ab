import Verif.Proofs.LooseRun
import Verif.Model.DeltaRetry
import Verif.Model.Pack
import Verif.Proofs.LightZlib
/-!
# C99: how much is asked of a source at a time
-/
set_option autoImplicit false

namespace GitDB.Props
open GitDB Spec

variable {σ ω ρ : Type}

/-- A reader which notes the arguments of its calls. -/
def noted (read : σ → Int → σ × Res Bytes) : σ × List Int → Int → (σ × List Int) × Res Bytes :=
  fun x n => let r := read x.1 n; ((r.1, x.2 ++ [n]), r.2)

/-- A source that never returns more than was asked for. -/
def Honest (read : σ → Int → σ × Res Bytes) : Prop := ∀ s n s' d, 0 ≤ n → read s n = (s', .ok d) → (d.length : Int) ≤ n

theorem loop_requests {read : σ → Int → σ × Res Bytes} (hr : Honest read) (write : ω → Bytes → ω × Res ρ) {size chunk : Int}
    (hs : 0 ≤ size) (hc : 1 ≤ chunk) : ∀ (fuel : Nat) (dbw : Int) (s : σ) (log : List Int) (w : ω), 0 ≤ dbw → dbw < size ∨ size = 0 ∧ dbw = 0 →
    ∃ ns, (streamCopyLoop (noted read) write size chunk fuel dbw (s, log) w).1.2 = log ++ ns ∧
      (∀ n ∈ ns, n ≤ chunk ∧ (0 < n ∨ n = 0 ∧ size = 0)) ∧ ns.sum ≤ size - dbw ∧ (ns.length : Int) ≤ (size - dbw) / chunk + 1 := by
  intro fuel
  induction fuel with
  | zero =>
    intro dbw s log w h0 h1
    refine ⟨[], by simp [streamCopyLoop], (fun n hn => nomatch hn), by simp; omega, ?_⟩
    have := Int.ediv_nonneg (a := size - dbw) (b := chunk) (by omega) (by omega)
    simp
    omega
  | succ fuel ih =>
    intro dbw s log w h0 h1
    have hd := Int.ediv_nonneg (a := size - dbw) (b := chunk) (by omega) (by omega)
    have one : ∃ ns, log ++ [min chunk (size - dbw)] = log ++ ns ∧
        (∀ n ∈ ns, n ≤ chunk ∧ (0 < n ∨ n = 0 ∧ size = 0)) ∧ ns.sum ≤ size - dbw ∧ (ns.length : Int) ≤ (size - dbw) / chunk + 1 := by
      refine ⟨[min chunk (size - dbw)], rfl, fun n hn => ?_, by simp; omega, by simp; omega⟩
      cases List.mem_singleton.mp hn
      omega
    rw [streamCopyLoop]
    simp only [noted]
    rcases hrd : read s (min chunk (size - dbw)) with ⟨s', e | d⟩
    · exact one
    · simp only
      have hl := hr _ _ _ _ (by omega) hrd
      rcases hw : write w d with ⟨w', e | u⟩
      · exact one
      · simp only
        by_cases hstop : (d.length : Int) < min chunk (size - dbw) ∨ dbw + d.length = size
        · rw [if_pos hstop]
          exact one
        · rw [if_neg hstop]
          have e1 : min chunk (size - dbw) = chunk := by omega
          obtain ⟨ns, h2, h3, h4, h5⟩ := ih (dbw + d.length) s' (log ++ [min chunk (size - dbw)]) w' (by omega) (by omega)
          refine ⟨min chunk (size - dbw) :: ns, ?_, ?_, ?_, ?_⟩
          · rw [h2]
            simp
          · intro n hn
            rcases List.mem_cons.mp hn with rfl | hn
            · omega
            · exact h3 n hn
          · simp only [List.sum_cons]
            omega
          · have e2 : size - (dbw + d.length) = size - dbw + -1 * chunk := by omega
            rw [e2, Int.add_mul_ediv_right _ _ (by omega)] at h5
            simp only [List.length_cons]
            omega

/-- **C99** copying `size` bytes from any source that never returns more than was asked for, into any writer: no call asks for more than
`chunk_size` bytes, all calls together ask for no more than `size` bytes, and there are at most `size / chunk_size + 1` calls.  (None
asks for 0 bytes, which for streams of objects would mean everything, unless `size` is 0.) -/
theorem C99_copy {read : σ → Int → σ × Res Bytes} (hr : Honest read) (write : ω → Bytes → ω × Res ρ) (size : Nat) {chunk : Int}
    (hc : 1 ≤ chunk) (fuel : Nat) (s : σ) (w : ω) :
    let ns := (streamCopy fuel (noted read) write size chunk (s, []) w).1.2
    (∀ n ∈ ns, n ≤ chunk ∧ (0 < n ∨ n = 0 ∧ size = 0)) ∧ ns.sum ≤ size ∧ (ns.length : Int) ≤ size / chunk + 1 := by
  intro ns
  obtain ⟨ns', h1, h2, h3, h4⟩ := loop_requests hr write (size := size) (chunk := chunk) (by omega) hc fuel 0 s [] w (by omega) (by omega)
  have e : ns = ns' := h1
  rw [e]
  refine ⟨fun n hn => ?_, by simpa using h3, by simpa using h4⟩
  obtain ⟨h5, h6⟩ := h2 n hn
  exact ⟨h5, by omega⟩

theorem object_requests {read : σ → Int → σ × Res Bytes} (hr : Honest read) (write : ω → Bytes → ω × Res (Option Int)) (type : Bytes) (size : Nat)
    {chunk : Int} (hc : 1 ≤ chunk) (fuel : Nat) (s : σ) (w : ω) :
    let ns := (writeObject fuel type size (noted read) write chunk (s, []) w).1.2
    (∀ n ∈ ns, n ≤ chunk ∧ (0 < n ∨ n = 0 ∧ size = 0)) ∧ ns.sum ≤ size ∧ (ns.length : Int) ≤ size / chunk + 1 := by
  intro ns
  have h0 : (∀ n ∈ ([] : List Int), n ≤ chunk ∧ (0 < n ∨ n = 0 ∧ size = 0)) ∧ ([] : List Int).sum ≤ size ∧
      ((([] : List Int).length : Nat) : Int) ≤ size / chunk + 1 := by
    have := Int.ediv_nonneg (a := size) (b := chunk) (by omega) (by omega)
    refine ⟨(fun n hn => nomatch hn), by simp, by simp; omega⟩
  have e : ns = (writeObject fuel type size (noted read) write chunk (s, []) w).1.2 := rfl
  unfold writeObject at e
  split at e
  · rw [e]; exact h0
  · split at e
    · rw [e]; exact h0
    · rw [e]; exact h0
    · rename_i w' n hw
      have := C99_copy hr write size hc fuel s w'
      rcases hcp : streamCopy fuel (noted read) write size chunk (s, []) w' with ⟨⟨s', l⟩, w'', e' | m⟩ <;>
        rw [hcp] at this e <;> rw [e] <;> exact this

/-- **C99** `store` of a new object into a loose database, whatever the operating system does: the stream given is asked for at most
4096000 bytes at a time, for no more than the announced size altogether, and at most once per 4096000 bytes and once more.  With a
preset name, where the data is copied up to the end of the stream, at most 4096000 bytes at a time as well. -/
theorem C99_store {read : σ → Int → σ × Res Bytes} (hr : Honest read) (H : Hash) (zl : Zlib) (fuel : Nat) (env : StoreEnv) (i : IStream σ) :
    let ns := (looseStore H zl fuel env (noted read) { i with strm := (i.strm, []) }).2.1.strm.2
    (∀ n ∈ ns, n ≤ 4096000 ∧ (0 < n ∨ n = 0 ∧ i.size = 0)) ∧
    (i.binsha = none → ns.sum ≤ i.size ∧ (ns.length : Int) ≤ i.size / 4096000 + 1) := by
  intro ns
  have h0 : (∀ n ∈ ([] : List Int), n ≤ 4096000 ∧ (0 < n ∨ n = 0 ∧ i.size = 0)) ∧
      (i.binsha = none → ([] : List Int).sum ≤ i.size ∧ ((([] : List Int).length : Nat) : Int) ≤ i.size / 4096000 + 1) := by
    have := Int.ediv_nonneg (a := i.size) (b := 4096000) (by omega) (by omega)
    exact ⟨(fun n hn => nomatch hn), fun _ => ⟨by simp, by simp; omega⟩⟩
  have e : ns = (looseStore H zl fuel env (noted read) { i with strm := (i.strm, []) }).2.1.strm.2 := rfl
  have hlc : looseChunk = 4096000 := rfl
  unfold looseStore at e
  rcases ht : env.tmp with _ | rnd
  · rw [ht] at e
    rw [e]
    exact h0
  · rw [ht] at e
    simp only at e
    rcases hb : i.binsha with _ | b
    · simp only [hb] at e
      have h1 := object_requests hr (fdWrite (zl := zl)) i.type i.size (chunk := looseChunk) (by decide) fuel i.strm
        (FDCompressedSha1Writer.new zl { plan := env.plan })
      have e2 : ns = (writeObject fuel i.type i.size (noted read) fdWrite looseChunk (i.strm, [])
          (FDCompressedSha1Writer.new zl { plan := env.plan })).1.2 := by
        rw [e]
        unfold writeNew
        simp only
        split
        · split <;> rfl
        · split
          · rfl
          · split
            · rfl
            · split <;> rfl
      rw [e2]
      rw [hlc] at h1 ⊢
      exact ⟨h1.1, fun _ => h1.2⟩
    · simp only [hb] at e
      obtain ⟨ns', h1, h2, h3, h4⟩ := loop_requests hr FDStream.write (size := maxsize) (chunk := looseChunk) (by decide) (by decide) fuel 0 i.strm []
        ({ fd := { plan := env.plan } } : FDStream) (by omega) (.inl (by decide))
      have e2 : ns = (streamCopy fuel (noted read) FDStream.write maxsize looseChunk (i.strm, [])
          ({ fd := { plan := env.plan } } : FDStream)).1.2 := by
        rw [e]
        unfold writeRaw
        simp only
        split
        · split <;> rfl
        · split
          · rfl
          · split
            · rfl
            · split <;> rfl
      have e3 : ns = ns' := by rw [e2]; exact h1
      rw [e3]
      refine ⟨fun n hn => ?_, (fun h => nomatch h)⟩
      obtain ⟨h5, h6⟩ := h2 n hn
      rw [hlc] at h5
      refine ⟨h5, ?_⟩
      rcases h6 with h6 | ⟨_, h6⟩
      · exact .inl h6
      · exact absurd h6 (by decide)

/-- **C99** packing an object, into any writer: every call asks for 4096000 bytes, whatever the size of the object.  If it succeeds there is one
call per 4096000 bytes delivered, and one more. -/
theorem C99_pack {read : σ → Int → σ × Res Bytes} (hr : Honest read) (zl : Zlib) (write : ω → Bytes → ω × Res ρ) (fuel : Nat) (z : zl.Comp)
    (crc : Option Nat) (s : σ) (w : ω) :
    let r := writeStreamToPack zl fuel (noted read) write z crc (s, []) w
    (∀ n ∈ r.1.2, n = 4096000) ∧ ∀ br bw c, r.2.2 = .ok (br, bw, c) → r.1.2.length = br / 4096000 + 1 := by
  have key : ∀ (fuel : Nat) (s : σ) (log : List Int) (w : ω) (z : zl.Comp) (br bw : Nat) (crc : Option Nat), 4096000 ∣ br →
      ∃ ns, (packCopyLoop zl (noted read) write fuel (s, log) w z br bw crc).1.2 = log ++ ns ∧ (∀ n ∈ ns, n = 4096000) ∧
        ∀ br' x, (packCopyLoop zl (noted read) write fuel (s, log) w z br bw crc).2.2 = .ok (br', x) → br ≤ br' ∧ ns.length = (br' - br) / 4096000 + 1 := by
    intro fuel
    induction fuel with
    | zero =>
      intro s log w z br bw crc _
      exact ⟨[], by simp [packCopyLoop], (fun n hn => nomatch hn), (fun br' x h => nomatch h)⟩
    | succ fuel ih =>
      intro s log w z br bw crc hd
      have hcs : chunkSize = 4096000 := rfl
      have h1 : ∀ n ∈ [(chunkSize : Int)], n = 4096000 := by simp [hcs]
      unfold packCopyLoop
      simp only [noted]
      rcases hrd : read s chunkSize with ⟨s', e | d⟩
      · exact ⟨[(chunkSize : Int)], rfl, h1, (fun br' x h => nomatch h)⟩
      · simp only
        have hl := hr _ _ _ _ (by omega) hrd
        rcases hw : write w (zl.ccompress z d).2 with ⟨w', e | u⟩
        · exact ⟨[(chunkSize : Int)], rfl, h1, (fun br' x h => nomatch h)⟩
        · simp only
          by_cases hs : d.length ≠ chunkSize
          · rw [if_pos hs]
            refine ⟨[(chunkSize : Int)], rfl, h1, fun br' x h => ?_⟩
            simp only [Except.ok.injEq, Prod.mk.injEq] at h
            rw [← h.1]
            refine ⟨Nat.le_add_right _ _, ?_⟩
            rw [Nat.add_sub_cancel_left, Nat.div_eq_of_lt (by omega)]
            rfl
          · rw [if_neg hs]
            have he : d.length = 4096000 := by omega
            obtain ⟨ns, h2, h3, h4⟩ := ih s' (log ++ [(chunkSize : Int)]) w' (zl.ccompress z d).1 (br + d.length) (bw + (zl.ccompress z d).2.length) (crc.map (crc32 (zl.ccompress z d).2))
              (by rw [he]; exact Nat.dvd_add hd (Nat.dvd_refl _))
            refine ⟨(chunkSize : Int) :: ns, ?_, ?_, fun br' x h => ?_⟩
            · rw [h2]
              simp
            · intro n hn
              rcases List.mem_cons.mp hn with rfl | hn
              · rfl
              · exact h3 n hn
            · obtain ⟨h5, h6⟩ := h4 br' x h
              refine ⟨by omega, ?_⟩
              rw [List.length_cons, h6]
              omega
  intro r
  have e : r = writeStreamToPack zl fuel (noted read) write z crc (s, []) w := rfl
  unfold writeStreamToPack at e
  obtain ⟨ns, h1, h2, h3⟩ := key fuel s [] w z 0 0 crc (Nat.dvd_zero _)
  rw [List.nil_append] at h1
  rcases hp : packCopyLoop zl (noted read) write fuel (s, []) w z 0 0 crc with ⟨⟨s', l⟩, w', e' | ⟨br, bw, c, z'⟩⟩
  · rw [hp] at e h1
    simp only at h1 e
    rw [e]
    exact ⟨by rw [h1]; exact h2, (fun _ _ _ h => nomatch h)⟩
  · rw [hp] at e h1 h3
    simp only at h1 e
    have h4 := (h3 br _ rfl).2
    rcases hw : write w' (zl.cflush z') with ⟨w'', e' | u⟩
    · rw [hw] at e
      simp only at e
      rw [e]
      exact ⟨by rw [h1]; exact h2, (fun _ _ _ h => nomatch h)⟩
    · rw [hw] at e
      simp only at e
      rw [e]
      refine ⟨by rw [h1]; exact h2, fun br' bw' c' h => ?_⟩
      simp only [Except.ok.injEq, Prod.mk.injEq] at h
      rw [← h.1, h1, h4]
      rfl

/-! ## Deltas -/

/-- The requests made to a stream with this `size` attribute. -/
def FewAsked (x : (σ × List Int) × Nat) : Prop := ∀ n ∈ x.1.2, n ≤ 1048576 ∧ (0 < n ∨ n = 0 ∧ x.2 = 0)

theorem FewAsked.copy {read : σ → Int → σ × Res Bytes} (hr : Honest read) (write : ω → Bytes → ω × Res ρ) {s : σ × List Int} {size : Nat}
    (h : FewAsked (s, size)) (size' : Nat) (hs : size' = 0 → size = 0) (fuel : Nat) (w : ω) :
    FewAsked ((streamCopy fuel (noted read) write size' (256 * PAGESIZE : Nat) s w).1, size) := by
  obtain ⟨ns, h1, h2, -, -⟩ := loop_requests hr write (size := size') (chunk := (256 * PAGESIZE : Nat)) (by omega) (by decide) fuel 0 s.1 s.2 w (by omega)
    (by omega)
  intro n hn
  have hn' : n ∈ s.2 ++ ns := by rw [← h1]; exact hn
  rcases List.mem_append.mp hn' with hn | hn
  · exact h n hn
  · obtain ⟨h3, h4⟩ := h2 n hn
    refine ⟨by simpa [PAGESIZE] using h3, ?_⟩
    rcases h4 with h4 | ⟨h4, h5⟩
    · exact .inl h4
    · exact .inr ⟨h4, hs (by omega)⟩

theorem FewAsked.head {read : σ → Int → σ × Res Bytes} {s : σ × List Int} {size : Nat} (h : FewAsked (s, size)) :
    FewAsked ((tryHead (noted read) s size).1, size) ∧
    ∀ d, (tryHead (noted read) s size).2 = .ok d → d.strm = (tryHead (noted read) s size).1 ∧ d.size = size := by
  have h1 : FewAsked (((read s.1 512).1, s.2 ++ [512]), size) := by
    intro n hn
    rcases List.mem_append.mp hn with hn | hn
    · exact h n hn
    · cases List.mem_singleton.mp hn
      exact ⟨by decide, .inl (by decide)⟩
  unfold tryHead
  simp only [noted]
  rcases hrd : read s.1 512 with ⟨s', e | buf⟩
  · rw [hrd] at h1
    exact ⟨h1, (fun d hd => nomatch hd)⟩
  · rw [hrd] at h1
    simp only
    rcases msbSize buf 0 with e | ⟨o, a⟩
    · exact ⟨h1, (fun d hd => nomatch hd)⟩
    · simp only
      rcases msbSize buf o with e | ⟨o', b⟩
      · exact ⟨h1, (fun d hd => nomatch hd)⟩
      · refine ⟨h1, fun d hd => ?_⟩
        cases hd
        exact ⟨rfl, rfl⟩

theorem few_heads {read : σ → Int → σ × Res Bytes} : ∀ l : List ((σ × List Int) × Nat), (∀ x ∈ l, FewAsked x) →
    (∀ x ∈ (tryHeads (noted read) l).1, FewAsked x) ∧
    ∀ ds, (tryHeads (noted read) l).2 = .ok ds → ∀ d ∈ ds, FewAsked (d.strm, d.size)
  | [], h => ⟨h, fun ds hd d hm => by cases hd; cases hm⟩
  | (s, n) :: rest, h => by
    obtain ⟨h1, h2⟩ := FewAsked.head (read := read) (h (s, n) (by simp))
    have h3 := fun x hx => h x (List.mem_cons_of_mem _ hx)
    obtain ⟨i1, i2⟩ := few_heads (read := read) rest h3
    unfold tryHeads
    rcases hh : tryHead (noted read) s n with ⟨s', e | d⟩
    · rw [hh] at h1
      refine ⟨fun x hx => ?_, (fun ds hd => nomatch hd)⟩
      rcases List.mem_cons.mp hx with rfl | hx
      · exact h1
      · exact h3 x hx
    · rw [hh] at h1 h2
      obtain ⟨h4, h5⟩ := h2 d rfl
      simp only at h1 h4
      rcases ht : tryHeads (noted read) rest with ⟨rest', e | ds⟩
      · rw [ht] at i1
        refine ⟨fun x hx => ?_, (fun ds hd => nomatch hd)⟩
        rcases List.mem_cons.mp hx with rfl | hx
        · exact h1
        · exact i1 x hx
      · rw [ht] at i1 i2
        refine ⟨fun x hx => ?_, fun ds' hd d' hm => ?_⟩
        · rcases List.mem_cons.mp hx with rfl | hx
          · exact h1
          · exact i1 x hx
        · cases hd
          rcases List.mem_cons.mp hm with rfl | hm
          · rw [h4, h5]
            exact h1
          · exact i2 ds rfl d' hm

theorem few_one {read : σ → Int → σ × Res Bytes} (hr : Honest read) (fuel : Nat) (as : List Alloc) (bbuf tbuf : Buf)
    (d : DeltaInfo (σ × List Int)) (h : FewAsked (d.strm, d.size)) : FewAsked ((tryOne fuel (noted read) as bbuf tbuf d).2.1, d.size) := by
  unfold tryOne
  rcases allocateNext as ((d.size : Int) - d.offset) with ⟨as', e | ddata⟩
  · exact h
  simp only
  rcases ddata.write d.dbuf with ⟨ddata', e | u⟩
  · exact h
  simp only
  have h1 := h.copy hr Buf.write d.size id fuel ddata'
  rcases hc : streamCopy fuel (noted read) Buf.write d.size (256 * PAGESIZE : Nat) d.strm ddata' with ⟨s, ddata'', e | m⟩
  · rw [hc] at h1
    exact h1
  · rw [hc] at h1
    simp only
    rcases applyDeltaData bbuf.data d.srcSize ddata''.data ddata''.data.length Buf.write tbuf with ⟨t, e | u⟩
    · exact h1
    · exact h1

theorem few_all {read : σ → Int → σ × Res Bytes} (hr : Honest read) (fuel : Nat) : ∀ (ds : List (DeltaInfo (σ × List Int))) (as : List Alloc) (bbuf tbuf : Buf),
    (∀ d ∈ ds, FewAsked (d.strm, d.size)) → ∀ x ∈ (tryAll fuel (noted read) as ds bbuf tbuf).2.1, FewAsked x
  | [], _, _, _, _ => by intro x hx; cases hx
  | d :: ds, as, bbuf, tbuf, h => by
    have h1 := few_one hr fuel as bbuf tbuf d (h d (by simp))
    unfold tryAll
    rcases ho : tryOne fuel (noted read) as bbuf tbuf d with ⟨as', s, e | ⟨b, t⟩⟩
    · rw [ho] at h1
      intro x hx
      rcases List.mem_cons.mp hx with rfl | hx
      · exact h1
      · obtain ⟨d', hd, rfl⟩ := List.mem_map.mp hx
        exact h d' (List.mem_cons_of_mem _ hd)
    · rw [ho] at h1
      intro x hx
      rcases List.mem_cons.mp hx with rfl | hx
      · exact h1
      · exact few_all hr fuel ds as' b t (fun d hd => h d (List.mem_cons_of_mem _ hd)) x hx

/-- All streams of a delta reader. -/
def AllFew (r : LazyDelta (σ × List Int)) : Prop := (∀ x ∈ r.dstreams, FewAsked x) ∧ FewAsked r.bstream

theorem few_cache {read : σ → Int → σ × Res Bytes} (hr : Honest read) (fuel : Nat) (as : List Alloc) (r : LazyDelta (σ × List Int)) (h : AllFew r) :
    AllFew (trySetCache fuel (noted read) as r).2.1 := by
  obtain ⟨h1, h2⟩ := few_heads (read := read) r.dstreams h.1
  unfold trySetCache
  rcases hh : tryHeads (noted read) r.dstreams with ⟨ds, e | infos⟩
  · rw [hh] at h1
    exact ⟨h1, h.2⟩
  rw [hh] at h1 h2
  simp only
  generalize hsz : (if r.dstreams.length > 1 then
      (max r.bstream.2 (infos.foldl (fun m d => max m d.targetSize) 0), max r.bstream.2 (infos.foldl (fun m d => max m d.targetSize) 0))
      else (r.bstream.2, infos.foldl (fun m d => max m d.targetSize) 0)) = sizes
  have hz : sizes.1 = 0 → r.bstream.2 = 0 := by
    rw [← hsz]
    split
    · simp only; omega
    · exact id
  rcases allocateNext as sizes.1 with ⟨as1, e | bbuf⟩
  · exact ⟨h1, h.2⟩
  simp only
  have h3 : FewAsked (r.bstream.1, r.bstream.2) := h.2
  have h4 := h3.copy hr Buf.write sizes.1 hz fuel bbuf
  rcases hc : streamCopy fuel (noted read) Buf.write sizes.1 (256 * PAGESIZE : Nat) r.bstream.1 bbuf with ⟨s, bbuf', e | m⟩
  · rw [hc] at h4
    exact ⟨h1, h4⟩
  rw [hc] at h4
  simp only
  rcases allocateNext as1 sizes.2 with ⟨as2, e | tbuf⟩
  · exact ⟨h1, h4⟩
  simp only
  have h5 := few_all hr fuel infos.reverse as2 bbuf' tbuf (fun d hd => h2 infos rfl d (List.mem_reverse.mp hd))
  rcases ha : tryAll fuel (noted read) as2 infos.reverse bbuf' tbuf with ⟨as3, ds', e | ⟨b, t⟩⟩
  · rw [ha] at h5
    exact ⟨fun x hx => h5 x (List.mem_reverse.mp hx), h4⟩
  · rw [ha] at h5
    have h6 : ∀ x ∈ ds'.reverse, FewAsked x := fun x hx => h5 x (List.mem_reverse.mp hx)
    rcases infos with _ | ⟨d, infos⟩
    · exact ⟨h6, h4⟩
    · exact ⟨h6, h4⟩

theorem few_call {read : σ → Int → σ × Res Bytes} (hr : Honest read) (fuel : Nat) (as : List Alloc) (r : LazyDelta (σ × List Int)) (c : DeltaCall)
    (h : AllFew r) : AllFew (r.call fuel (noted read) as c).2.1 := by
  have key : ∀ r : LazyDelta (σ × List Int), AllFew r → AllFew (r.need fuel (noted read) as).2.1 := by
    intro r h
    unfold LazyDelta.need
    split
    · exact h
    · exact few_cache hr fuel as r h
  cases c with
  | read count =>
    have h1 := key r h
    unfold LazyDelta.call
    simp only
    rcases hn : r.need fuel (noted read) as with ⟨as', r', e | ⟨t, n⟩⟩ <;> rw [hn] at h1 <;> exact h1
  | seek offset whence =>
    unfold LazyDelta.call
    simp only
    split
    · exact h
    · have h1 := key { r with br := 0 } h
      rcases hn : LazyDelta.need fuel (noted read) as { r with br := 0 } with ⟨as', r', e | ⟨t, n⟩⟩ <;> rw [hn] at h1 <;> exact h1
  | size =>
    have h1 := key r h
    unfold LazyDelta.call
    simp only
    rcases hn : r.need fuel (noted read) as with ⟨as', r', e | ⟨t, n⟩⟩ <;> rw [hn] at h1 <;> exact h1

/-- **C99** a `DeltaApplyReader`, whatever is called on it and whatever fails: no stream of the chain is asked for more than 1 MiB at a time,
however large object, base and deltas are. -/
theorem C99_deltas {read : σ → Int → σ × Res Bytes} (hr : Honest read) (fuel : Nat) (calls : List DeltaCall) (as : List Alloc)
    (streams : List (σ × Nat)) (r : LazyDelta (σ × List Int)) (hn : newLazyDelta (streams.map fun x => ((x.1, []), x.2)) = .ok r) :
    let r' := (r.calls fuel (noted read) as calls).1
    ∀ x ∈ r'.bstream :: r'.dstreams, ∀ n ∈ x.1.2, n ≤ 1048576 ∧ (0 < n ∨ n = 0 ∧ x.2 = 0) := by
  have key : ∀ (calls : List DeltaCall) (as : List Alloc) (r : LazyDelta (σ × List Int)), AllFew r → AllFew (r.calls fuel (noted read) as calls).1 := by
    intro calls
    induction calls with
    | nil => intro as r h; exact h
    | cons c cs ih =>
      intro as r h
      exact ih _ _ (few_call hr fuel as r c h)
  have h0 : ∀ x ∈ streams.map (fun x => (((x.1, []) : σ × List Int), x.2)), FewAsked x := by
    intro x hx n hn
    obtain ⟨y, -, rfl⟩ := List.mem_map.mp hx
    cases hn
  have h1 : AllFew r := by
    unfold newLazyDelta at hn
    split at hn
    · rename_i base d ds he
      cases hn
      refine ⟨fun x hx => ?_, ?_⟩
      · apply h0
        rw [← List.mem_reverse, he]
        exact List.mem_cons_of_mem _ (List.mem_reverse.mp hx)
      · apply h0
        rw [← List.mem_reverse, he]
        simp
    · cases hn
  intro r' x hx
  have h2 := key calls as r h1
  rcases List.mem_cons.mp hx with rfl | hx
  · exact h2.2
  · exact h2.1 x hx

/-! ## Examples -/

theorem bytesIO_honest : Honest bytesIORead := by
  intro s n s' d hn h
  unfold bytesIORead at h
  split at h
  · omega
  · cases h
    simp
    omega

/-- Ten bytes, four at a time: three calls, and what follows is not asked for.  Packing asks for 4096000. -/
example : (streamCopy 5 (noted bytesIORead) collect 10 4 (List.replicate 20 7, []) []).1.2 = [4, 4, 2] := by decide
example : (streamCopy 5 (noted bytesIORead) collect 0 4 ([7], []) []).1.2 = [0] := by decide
example : (writeStreamToPack lightZlib 5 (noted bytesIORead) collect (lightZlib.cinit 1) none ([7], []) []).1.2 = [4096000] := by decide
example : (let ns := (streamCopy 5 (noted bytesIORead) collect (10 : Nat) 4 (List.replicate 20 7, []) []).1.2
    (∀ n ∈ ns, n ≤ 4 ∧ (0 < n ∨ n = 0 ∧ 10 = 0)) ∧ ns.sum ≤ (10 : Nat) ∧ (ns.length : Int) ≤ (10 : Nat) / 4 + 1) :=
  C99_copy bytesIO_honest collect 10 (chunk := 4) (by decide) 5 (List.replicate 20 7) []

/-- A delta and its base: the head of the delta, the rest of it, the base. -/
example : ∃ r, newLazyDelta [(([4, 4, 0x90, 4], []), 4), (([1, 2, 3, 4], []), 4)] = .ok r ∧
    (r.calls 9 (noted bytesIORead) [] [.read 2, .size]).2 = [.ok (.data [1, 2]), .ok (.num 4)] ∧
    (r.calls 9 (noted bytesIORead) [] [.read 2, .size]).1.dstreams.map (fun x => x.1.2) = [[512, 4]] ∧
    (r.calls 9 (noted bytesIORead) [] [.read 2, .size]).1.bstream.1.2 = [4] :=
  ⟨_, rfl, by decide +kernel, by decide +kernel, by decide +kernel⟩

end GitDB.Props
