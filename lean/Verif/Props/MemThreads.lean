import Verif.Model.MemThreads
import Verif.Props.Memory
import Verif.Props.Pack
import Verif.Props.Writers
/-!
# C117: several threads in one `MemoryDB`
-/
set_option autoImplicit false

namespace GitDB
open Spec

variable {zl : Zlib} {H : Hash}

/-- The writer after these pieces. -/
def wrote (zl : Zlib) (ds : List Bytes) : ZippedStoreShaWriter zl := ds.foldl (fun w d => (w.write d).1) (.new zl)

theorem wrote_snoc (ds : List Bytes) (d : Bytes) : wrote zl (ds ++ [d]) = ((wrote zl ds).write d).1 := by
  unfold wrote; rw [List.foldl_append]; rfl

theorem writeMany_foldl : ∀ (ds : List Bytes) (w w' : ZippedStoreShaWriter zl) (rs : List Nat),
    writeMany ZippedStoreShaWriter.write w ds = (w', .ok rs) → w' = ds.foldl (fun w d => (w.write d).1) w
  | [], w, w', rs, h => by cases h; rfl
  | d :: ds, w, w', rs, h => by
    simp only [writeMany] at h
    rw [show w.write d = ((w.write d).1, .ok d.length) from rfl] at h
    dsimp only at h
    rcases h1 : writeMany ZippedStoreShaWriter.write (w.write d).1 ds with ⟨w1, e | rs1⟩ <;> rw [h1] at h <;> cases h
    exact writeMany_foldl ds _ _ _ h1

theorem wrote_spec (L : ZlibLaws zl) (H0 : Hash) (ds : List Bytes) : (wrote zl ds).sha1.hashed = ds.flatten ∧
    IsZip zl (wrote zl ds).close.getvalue (wrote zl ds).close.getvalue.length ds.flatten := by
  obtain ⟨w, w', e, -, h, -⟩ := Props.C17_zipped_store zl L H0 ds
  obtain ⟨w2, e2, h2, -⟩ := zipped_writeMany ds (ZippedStoreShaWriter.new zl)
  have h3 := writeMany_foldl _ _ _ _ e
  rw [e] at e2
  cases e2
  refine ⟨?_, ?_⟩
  · unfold wrote
    rw [← h3, h2]
    rfl
  · unfold wrote
    rw [← h3]
    exact h

/-- The name under which an object belongs in the database. -/
def MStore.goodName (H : Hash) (s : MStore) : Bytes :=
  match s.binsha with
  | none | some [] => H.digest s.pieces.flatten
  | some b => b

/-- What belongs there. -/
def MStore.goodObj (zl : Zlib) (s : MStore) : MemObj := { type := s.type, size := s.size, reader := .ofMap (wrote zl s.pieces).close.getvalue }

/-- A thread that stores `s` and was not disturbed. -/
def MRight (H : Hash) (sh : MShared zl) (s : MStore) : MPc → Prop
  | .new s' => s' = s
  | .install s' z => s' = s ∧ sh.writers[z]? = some ⟨wrote zl [], false⟩
  | .fetch s' z => s' = s ∧ sh.writers[z]? = some ⟨wrote zl [], false⟩ ∧ sh.installed = some z
  | .hash s' z w left => s' = s ∧ w = z ∧ ∃ ds, s.pieces = ds ++ left ∧ sh.writers[z]? = some ⟨wrote zl ds, false⟩
  | .comp s' z w d left => s' = s ∧ w = z ∧ ∃ ds, s.pieces = ds ++ d :: left ∧
      sh.writers[z]? = some ⟨{ wrote zl ds with sha1 := ((wrote zl ds).sha1.write d).1 }, false⟩
  | .buf s' z w c left => s' = s ∧ w = z ∧ ∃ ds d, s.pieces = ds ++ d :: left ∧ c = (zl.ccompress (wrote zl ds).zip d).2 ∧
      sh.writers[z]? = some ⟨{ wrote zl ds with sha1 := ((wrote zl ds).sha1.write d).1, zip := (zl.ccompress (wrote zl ds).zip d).1 }, false⟩
  | .flush s' z name => (s' = s ∧ s.fails = none) ∧ name = s.goodName H ∧ sh.writers[z]? = some ⟨wrote zl s.pieces, false⟩
  | .bufEnd s' z name c => (s' = s ∧ s.fails = none) ∧ name = s.goodName H ∧ c = zl.cflush (wrote zl s.pieces).zip ∧ sh.writers[z]? = some ⟨wrote zl s.pieces, true⟩
  | .seek s' z name => (s' = s ∧ s.fails = none) ∧ name = s.goodName H ∧ sh.writers[z]? = some ⟨(wrote zl s.pieces).close, true⟩
  | .value s' z name => (s' = s ∧ s.fails = none) ∧ name = s.goodName H ∧ ∃ x, sh.writers[z]? = some x ∧ x.w.getvalue = (wrote zl s.pieces).close.getvalue
  | .put s' name m => (s' = s ∧ s.fails = none) ∧ name = s.goodName H ∧ m = (wrote zl s.pieces).close.getvalue
  | .has _ => False
  | .done r => (s.fails = none → r = .ok (.name (s.goodName H)) ∧ (nameGet (s.goodName H) sh.cache).isSome = true) ∧ ∀ e, s.fails = some e → r = .error e

/-- The writer that a thread has made. -/
def MPc.made : MPc → Option Nat
  | .install _ z | .fetch _ z | .hash _ z _ _ | .comp _ z _ _ _ | .buf _ z _ _ _ | .flush _ z _ | .bufEnd _ z _ _ | .seek _ z _ | .value _ z _ => some z
  | _ => none

theorem mright_made {sh : MShared zl} {s : MStore} {pc : MPc} (h : MRight H sh s pc) {z : Nat} (hz : pc.made = some z) : z < sh.writers.length := by
  have key : ∀ x, sh.writers[z]? = some x → z < sh.writers.length := fun x hx => (List.getElem?_eq_some_iff.mp hx).1
  cases pc <;> simp only [MPc.made, reduceCtorEq, Option.some.injEq] at hz
  all_goals subst hz
  · exact key _ h.2
  · exact key _ h.2.1
  · obtain ⟨-, -, ds, -, hw⟩ := h; exact key _ hw
  · obtain ⟨-, -, ds, -, hw⟩ := h; exact key _ hw
  · obtain ⟨-, -, ds, d, -, -, hw⟩ := h; exact key _ hw
  · exact key _ h.2.2
  · exact key _ h.2.2.2
  · exact key _ h.2.2
  · obtain ⟨-, -, x, hx, -⟩ := h; exact key _ hx

/-- What other threads must leave alone. -/
theorem mright_frame {sh sh' : MShared zl} {s : MStore} {pc : MPc} (h : MRight H sh s pc)
    (hw : ∀ z, pc.made = some z → sh'.writers[z]? = sh.writers[z]?) (hi : (∃ s z, pc = .fetch s z) → sh'.installed = sh.installed)
    (hc : ∀ n, (nameGet n sh.cache).isSome = true → (nameGet n sh'.cache).isSome = true) : MRight H sh' s pc := by
  cases pc
  case new => exact h
  case install => exact ⟨h.1, by rw [hw _ rfl]; exact h.2⟩
  case fetch => exact ⟨h.1, by rw [hw _ rfl]; exact h.2.1, by rw [hi ⟨_, _, rfl⟩]; exact h.2.2⟩
  case hash => obtain ⟨a, b, ds, c, d⟩ := h; exact ⟨a, b, ds, c, by rw [hw _ rfl]; exact d⟩
  case comp => obtain ⟨a, b, ds, c, d⟩ := h; exact ⟨a, b, ds, c, by rw [hw _ rfl]; exact d⟩
  case buf => obtain ⟨a, b, ds, c, d, e, f⟩ := h; exact ⟨a, b, ds, c, d, e, by rw [hw _ rfl]; exact f⟩
  case flush => exact ⟨h.1, h.2.1, by rw [hw _ rfl]; exact h.2.2⟩
  case bufEnd => exact ⟨h.1, h.2.1, h.2.2.1, by rw [hw _ rfl]; exact h.2.2.2⟩
  case seek => exact ⟨h.1, h.2.1, by rw [hw _ rfl]; exact h.2.2⟩
  case value => obtain ⟨a, b, x, c, d⟩ := h; exact ⟨a, b, x, by rw [hw _ rfl]; exact c, d⟩
  case put => exact h
  case has => exact h
  case done => exact ⟨fun hf => ⟨(h.1 hf).1, hc _ (h.1 hf).2⟩, h.2⟩

theorem set_get {α : Type} {l : List α} {z : Nat} {x y : α} (h : l[z]? = some x) : (l.set z y)[z]? = some y := by
  have := (List.getElem?_eq_some_iff.mp h).1
  rw [List.getElem?_set_self this]

/-- One step of such a thread. -/
structure MStepRight (H : Hash) (sh : MShared zl) (s : MStore) (pc : MPc) : Prop where
  right : MRight H (mstep H zl sh pc).1 s (mstep H zl sh pc).2
  writers : ∀ z, z < sh.writers.length → pc.made ≠ some z → (mstep H zl sh pc).1.writers[z]? = sh.writers[z]?
  installed : (¬ ∃ s z, pc = .install s z) → (mstep H zl sh pc).1.installed = sh.installed
  cache : (mstep H zl sh pc).1.cache = sh.cache ∨ (s.fails = none ∧ (mstep H zl sh pc).1.cache = nameSet (s.goodName H) (s.goodObj zl) sh.cache)
  made : ∀ z, (mstep H zl sh pc).2.made = some z → pc.made = some z ∨ z = sh.writers.length

theorem mstep_right (L : ZlibLaws zl) (sh : MShared zl) (s : MStore) (pc : MPc) (h : MRight H sh s pc) : MStepRight H sh s pc := by
  have other : ∀ (l : List (ZippedLife zl)) (z z' : Nat) (y : ZippedLife zl), (some z : Option Nat) ≠ some z' → (l.set z y)[z']? = l[z']? := by
    intro l z z' y hne
    exact List.getElem?_set_ne fun k => hne (by rw [k])
  cases pc
  case new s' =>
    cases h
    exact ⟨⟨rfl, by simp [mstep, wrote]⟩, fun z hz _ => List.getElem?_append_left hz, fun _ => rfl, .inl rfl, fun z hz => by cases hz; exact .inr rfl⟩
  case install s' z =>
    obtain ⟨rfl, h⟩ := h
    exact ⟨⟨rfl, h, rfl⟩, fun _ _ _ => rfl, fun k => absurd ⟨_, _, rfl⟩ k, .inl rfl, fun z hz => .inl hz⟩
  case fetch s' z =>
    obtain ⟨rfl, h, hi⟩ := h
    have e : mstep H zl sh (.fetch s' z) = (sh, .hash s' z z s'.pieces) := by simp only [mstep, hi]
    constructor <;> rw [e]
    · exact ⟨rfl, rfl, [], rfl, h⟩
    · exact fun _ _ _ => rfl
    · exact fun _ => rfl
    · exact .inl rfl
    · exact fun z hz => .inl hz
  case hash s' z w left =>
    obtain ⟨rfl, rfl, ds, hp, h⟩ := h
    cases left with
    | nil =>
      rcases hf : s'.fails with _ | e
      case some =>
        have e : mstep H zl sh (.hash s' w w []) = (sh, .done (.error e)) := by simp only [mstep, h, hf]
        constructor <;> rw [e]
        · exact ⟨fun k => absurd (hf.symm.trans k) nofun, fun e' he => by rw [hf] at he; cases he; rfl⟩
        · exact fun _ _ _ => rfl
        · exact fun _ => rfl
        · exact .inl rfl
        · exact fun z hz => by cases hz
      have hn : (match s'.binsha with
          | none | some [] => (wrote zl ds).sha1.sha H false
          | some b => b) = s'.goodName H := by
        unfold MStore.goodName Sha1Writer.sha
        rw [(wrote_spec L H ds).1, hp, List.append_nil]
        rfl
      have e : mstep H zl sh (.hash s' w w []) = (sh, .flush s' w (s'.goodName H)) := by
        unfold mstep
        simp only [h, hf]
        exact congrArg (fun n => (sh, MPc.flush s' w n)) hn
      constructor <;> rw [e]
      · exact ⟨⟨rfl, hf⟩, rfl, by rw [hp, List.append_nil]; exact h⟩
      · exact fun _ _ _ => rfl
      · exact fun _ => rfl
      · exact .inl rfl
      · exact fun z hz => .inl hz
    | cons d left =>
      have e : mstep H zl sh (.hash s' w w (d :: left)) = ({ sh with writers := sh.writers.set w ⟨{ wrote zl ds with sha1 := ((wrote zl ds).sha1.write d).1 }, false⟩ },
          .comp s' w w d left) := by simp only [mstep, h]
      constructor <;> rw [e]
      · exact ⟨rfl, rfl, ds, hp, set_get h⟩
      · exact fun _ _ hne => other _ _ _ _ hne
      · exact fun _ => rfl
      · exact .inl rfl
      · exact fun z hz => .inl hz
  case comp s' z w d left =>
    obtain ⟨rfl, rfl, ds, hp, h⟩ := h
    have e : mstep H zl sh (.comp s' w w d left) = ({ sh with writers := sh.writers.set w ⟨{ wrote zl ds with sha1 := ((wrote zl ds).sha1.write d).1, zip := (zl.ccompress (wrote zl ds).zip d).1 }, false⟩ },
          .buf s' w w (zl.ccompress (wrote zl ds).zip d).2 left) := by simp [mstep, h]
    constructor <;> rw [e]
    · exact ⟨rfl, rfl, ds, d, hp, rfl, set_get h⟩
    · exact fun _ _ hne => other _ _ _ _ hne
    · exact fun _ => rfl
    · exact .inl rfl
    · exact fun z hz => .inl hz
  case buf s' z w c left =>
    obtain ⟨rfl, rfl, ds, d, hp, rfl, h⟩ := h
    have e : mstep H zl sh (.buf s' w w (zl.ccompress (wrote zl ds).zip d).2 left) = ({ sh with writers := sh.writers.set w ⟨wrote zl (ds ++ [d]), false⟩ },
          .hash s' w w left) := by
      rw [wrote_snoc]
      simp only [mstep, h, ZippedStoreShaWriter.write]
    constructor <;> rw [e]
    · exact ⟨rfl, rfl, ds ++ [d], by rw [hp]; simp, set_get h⟩
    · exact fun _ _ hne => other _ _ _ _ hne
    · exact fun _ => rfl
    · exact .inl rfl
    · exact fun z hz => .inl hz
  case flush s' z name =>
    obtain ⟨⟨rfl, hf⟩, rfl, h⟩ := h
    have e : mstep H zl sh (.flush s' z (s'.goodName H)) = ({ sh with writers := sh.writers.set z ⟨wrote zl s'.pieces, true⟩ },
        .bufEnd s' z (s'.goodName H) (zl.cflush (wrote zl s'.pieces).zip)) := by simp [mstep, h]
    constructor <;> rw [e]
    · exact ⟨⟨rfl, hf⟩, rfl, rfl, set_get h⟩
    · exact fun _ _ hne => other _ _ _ _ hne
    · exact fun _ => rfl
    · exact .inl rfl
    · exact fun z hz => .inl hz
  case bufEnd s' z name c =>
    obtain ⟨⟨rfl, hf⟩, rfl, rfl, h⟩ := h
    have e : mstep H zl sh (.bufEnd s' z (s'.goodName H) (zl.cflush (wrote zl s'.pieces).zip)) =
        ({ sh with writers := sh.writers.set z ⟨(wrote zl s'.pieces).close, true⟩ }, .seek s' z (s'.goodName H)) := by
      simp only [mstep, h, ZippedStoreShaWriter.close]
    constructor <;> rw [e]
    · exact ⟨⟨rfl, hf⟩, rfl, set_get h⟩
    · exact fun _ _ hne => other _ _ _ _ hne
    · exact fun _ => rfl
    · exact .inl rfl
    · exact fun z hz => .inl hz
  case seek s' z name =>
    obtain ⟨⟨rfl, hf⟩, rfl, h⟩ := h
    have e : ∃ x : ZippedLife zl, x.w.getvalue = (wrote zl s'.pieces).close.getvalue ∧
        mstep H zl sh (.seek s' z (s'.goodName H)) = ({ sh with writers := sh.writers.set z x }, .value s' z (s'.goodName H)) := by
      refine ⟨⟨((wrote zl s'.pieces).close.seek 0 0).1, true⟩, by simp [ZippedStoreShaWriter.seek, ZippedStoreShaWriter.getvalue], ?_⟩
      simp [mstep, h, ZippedStoreShaWriter.seek]
    obtain ⟨x, hx, e⟩ := e
    constructor <;> rw [e]
    · exact ⟨⟨rfl, hf⟩, rfl, x, set_get h, hx⟩
    · exact fun _ _ hne => other _ _ _ _ hne
    · exact fun _ => rfl
    · exact .inl rfl
    · exact fun z hz => .inl hz
  case value s' z name =>
    obtain ⟨⟨rfl, hf⟩, rfl, x, h, hx⟩ := h
    have e : mstep H zl sh (.value s' z (s'.goodName H)) = (sh, .put s' (s'.goodName H) (wrote zl s'.pieces).close.getvalue) := by
      simp only [mstep, h, hx]
    constructor <;> rw [e]
    · exact ⟨⟨rfl, hf⟩, rfl, rfl⟩
    · exact fun _ _ _ => rfl
    · exact fun _ => rfl
    · exact .inl rfl
    · exact fun z hz => by cases hz
  case put s' name m =>
    obtain ⟨⟨rfl, hf⟩, rfl, rfl⟩ := h
    refine ⟨⟨fun _ => ⟨rfl, ?_⟩, fun e he => by rw [hf] at he; cases he⟩, fun _ _ _ => rfl, fun _ => rfl, .inr ⟨hf, rfl⟩, fun z hz => by cases hz⟩
    simp only [mstep, nameGet_set_same]
    rfl
  case has sha => exact absurd h id
  case done r => exact ⟨h, fun _ _ _ => rfl, fun _ => rfl, .inl rfl, fun z hz => .inl hz⟩

end GitDB

namespace GitDB.Props
open GitDB Spec

variable {zl : Zlib} {H : Hash}

/-- No store gets to `set_ostream` while another one is between its `set_ostream` and its `ostream()`. -/
def StoresApart (H : Hash) (s : MSys zl) : List Nat → Prop
  | [] => True
  | i :: sched => ((∃ st z, s.threads[i]? = some (.install st z)) → ∀ (j : Nat) (st : MStore) (z : Nat), s.threads[j]? ≠ some (.fetch st z)) ∧ StoresApart H (s.step H i) sched

structure MInv (H : Hash) (sh0 : MShared zl) (calls : List MCall) (s : MSys zl) : Prop where
  len : s.threads.length = calls.length
  stores : ∀ (i : Nat) (st : MStore), calls[i]? = some (.store st) → ∃ pc, s.threads[i]? = some pc ∧ MRight H s.sh st pc
  has : ∀ (i : Nat) (n : Bytes), calls[i]? = some (.has n) → s.threads[i]? = some (.has n) ∨
    ∃ b, s.threads[i]? = some (.done (.ok (.has b))) ∧ (b = true → (nameGet n s.sh.cache).isSome = true) ∧ ((nameGet n sh0.cache).isSome = true → b = true)
  apart : ∀ (i j : Nat) (p q : MPc) (z : Nat), i ≠ j → s.threads[i]? = some p → s.threads[j]? = some q → p.made = some z → q.made ≠ some z
  cache : ∀ n o, nameGet n s.sh.cache = some o → nameGet n sh0.cache = some o ∨ ∃ st, MCall.store st ∈ calls ∧ st.fails = none ∧ n = st.goodName H ∧ o = st.goodObj zl
  kept : ∀ n, (nameGet n sh0.cache).isSome = true → (nameGet n s.sh.cache).isSome = true

theorem nameSet_isSome {α : Type} {k n : Bytes} {v : α} {d : List (Bytes × α)} (h : (nameGet n d).isSome = true) : (nameGet n (nameSet k v d)).isSome = true := by
  by_cases hn : n = k
  · rw [hn, nameGet_set_same]; rfl
  · rw [nameGet_set_other v hn]; exact h

theorem minv_start (sh0 : MShared zl) (calls : List MCall) : MInv H sh0 calls ⟨sh0, calls.map MCall.start⟩ where
  len := by simp
  stores := fun i st h => ⟨.new st, by simp [h, MCall.start], rfl⟩
  has := fun i n h => .inl (by simp [h, MCall.start])
  apart := by
    intro i j p q z _ hp _ hz
    simp only [List.getElem?_map, Option.map_eq_some_iff] at hp
    obtain ⟨c, -, rfl⟩ := hp
    cases c <;> cases hz
  cache := fun n o h => .inl h
  kept := fun n h => h

theorem minv_step (L : ZlibLaws zl) {sh0 : MShared zl} {calls : List MCall} {s : MSys zl} (h : MInv H sh0 calls s) (i : Nat)
    (hu : (∃ st z, s.threads[i]? = some (.install st z)) → ∀ (j : Nat) (st : MStore) (z : Nat), s.threads[j]? ≠ some (.fetch st z)) :
    MInv H sh0 calls (s.step H i) := by
  unfold MSys.step
  rcases hpc : s.threads[i]? with _ | pc
  · exact h
  have hil := (List.getElem?_eq_some_iff.mp hpc).1
  have hic : i < calls.length := by rw [← h.len]; exact hil
  dsimp only
  have hself : ∀ x, (s.threads.set i x)[i]? = some x := fun x => set_get hpc
  have hother : ∀ x j, j ≠ i → (s.threads.set i x)[j]? = s.threads[j]? := fun x j hj => List.getElem?_set_ne (Ne.symm hj)
  rcases hcall : calls[i] with st | n
  · -- a store
    have hci : calls[i]? = some (.store st) := by rw [List.getElem?_eq_getElem hic, hcall]
    obtain ⟨pc', hpc', hr⟩ := h.stores i st hci
    rw [hpc] at hpc'
    cases hpc'
    have hs := mstep_right L s.sh st pc hr
    have hmono : ∀ n, (nameGet n s.sh.cache).isSome = true → (nameGet n (mstep H zl s.sh pc).1.cache).isSome = true := by
      intro n hn
      rcases hs.cache with e | ⟨-, e⟩ <;> rw [e]
      · exact hn
      · exact nameSet_isSome hn
    have hmade : ∀ (j : Nat) (q : MPc) (z : Nat), s.threads[j]? = some q → q.made = some z → z < s.sh.writers.length := by
      intro j q z hj hz
      have hjl : j < calls.length := by rw [← h.len]; exact (List.getElem?_eq_some_iff.mp hj).1
      rcases hcj : calls[j] with st' | n'
      · obtain ⟨q', hq', hr'⟩ := h.stores j st' (by rw [List.getElem?_eq_getElem hjl, hcj])
        rw [hj] at hq'
        cases hq'
        exact mright_made hr' hz
      · rcases h.has j n' (by rw [List.getElem?_eq_getElem hjl, hcj]) with e | ⟨b, e, -⟩ <;> rw [hj] at e <;> cases e <;> cases hz
    refine ⟨by rw [List.length_set]; exact h.len, ?_, ?_, ?_, ?_, fun n hn => hmono n (h.kept n hn)⟩
    · intro j st' hj
      by_cases hji : j = i
      · subst hji
        rw [hci] at hj
        cases hj
        exact ⟨_, hself _, hs.right⟩
      · obtain ⟨q, hq, hr'⟩ := h.stores j st' hj
        refine ⟨q, by dsimp only; rw [hother _ j hji]; exact hq, mright_frame hr' ?_ ?_ hmono⟩
        · intro z hz
          exact hs.writers z (hmade j q z hq hz) fun k => h.apart i j pc q z (Ne.symm hji) hpc hq k hz
        · rintro ⟨s1, z1, rfl⟩
          exact hs.installed fun ⟨s2, z2, e⟩ => hu ⟨s2, z2, by rw [hpc, e]⟩ j s1 z1 hq
    · intro j n hj
      by_cases hji : j = i
      · subst hji; rw [hci] at hj; cases hj
      · dsimp only
        rw [hother _ j hji]
        rcases h.has j n hj with e | ⟨b, e, e1, e2⟩
        · exact .inl e
        · exact .inr ⟨b, e, fun hb => hmono n (e1 hb), e2⟩
    · intro a b p q z hab hp hq hz
      dsimp only at hp hq
      by_cases ha : a = i
      · subst ha
        have hb : b ≠ a := Ne.symm hab
        rw [hself] at hp
        rw [hother _ b hb] at hq
        cases hp
        rcases hs.made z hz with hm | hm
        · exact h.apart a b pc q z hab hpc hq hm
        · intro hz'
          have := hmade b q z hq hz'
          omega
      · rw [hother _ a ha] at hp
        by_cases hb : b = i
        · subst hb
          rw [hself] at hq
          cases hq
          intro hz'
          rcases hs.made z hz' with hm | hm
          · exact h.apart a b p pc z hab hp hpc hz hm
          · have := hmade a p z hp hz
            omega
        · rw [hother _ b hb] at hq
          exact h.apart a b p q z hab hp hq hz
    · intro n o ho
      dsimp only at ho
      rcases hs.cache with e | ⟨hf, e⟩ <;> rw [e] at ho
      · exact h.cache n o ho
      · by_cases hn : n = st.goodName H
        · rw [hn, nameGet_set_same] at ho
          cases ho
          exact .inr ⟨st, List.mem_of_getElem? hci, hf, hn, rfl⟩
        · rw [nameGet_set_other _ hn] at ho
          exact h.cache n o ho
  · -- a lookup
    have hci : calls[i]? = some (.has n) := by rw [List.getElem?_eq_getElem hic, hcall]
    have key : ∃ b, mstep H zl s.sh pc = (s.sh, .done (.ok (.has b))) ∧ (b = true → (nameGet n s.sh.cache).isSome = true) ∧
        ((nameGet n sh0.cache).isSome = true → b = true) := by
      rcases h.has i n hci with e | ⟨b, e, e1, e2⟩ <;> rw [hpc] at e <;> cases e
      · exact ⟨_, rfl, id, h.kept n⟩
      · exact ⟨b, rfl, e1, e2⟩
    obtain ⟨b, e, e1, e2⟩ := key
    rw [e]
    refine ⟨by rw [List.length_set]; exact h.len, ?_, ?_, ?_, h.cache, h.kept⟩
    · intro j st' hj
      have hji : j ≠ i := fun k => by rw [k, hci] at hj; cases hj
      dsimp only
      rw [hother _ j hji]
      exact h.stores j st' hj
    · intro j n' hj
      by_cases hji : j = i
      · subst hji
        rw [hci] at hj
        cases hj
        exact .inr ⟨b, hself _, e1, e2⟩
      · dsimp only
        rw [hother _ j hji]
        exact h.has j n' hj
    · intro a c p q z hac hp hq hz
      dsimp only at hp hq
      by_cases ha : a = i
      · rw [ha, hself] at hp
        cases hp
        cases hz
      · rw [hother _ a ha] at hp
        by_cases hc : c = i
        · rw [hc, hself] at hq
          cases hq
          exact nofun
        · rw [hother _ c hc] at hq
          exact h.apart a c p q z hac hp hq hz

theorem minv_run (L : ZlibLaws zl) {sh0 : MShared zl} {calls : List MCall} : ∀ (sched : List Nat) (s : MSys zl), MInv H sh0 calls s → StoresApart H s sched →
    MInv H sh0 calls (s.run H sched)
  | [], _, h, _ => h
  | i :: sched, s, h, hu => minv_run L sched (s.step H i) (minv_step L h i hu.1) hu.2

/-- **C117** any number of threads store objects in one `MemoryDB` (new or used before) and ask for names, one step at a time.  If no store gets to `set_ostream` while another
one is between its `set_ostream` and the moment `LooseObjectDB.store` asks for the stream, then at every moment: a store whose source raises has raised that, if it has ended; otherwise it has returned its object's name
(the digest of what was written, or the name it came with), which is in the database; every object in the database was there before, or is one of those to be stored whose source does not raise, under
its name, with its type and size and the complete compressed form of its data; nothing that was there is lost; and `has_object` has answered so. -/
theorem C117_stores (L : ZlibLaws zl) (sh0 : MShared zl) (calls : List MCall) (sched : List Nat) (hu : StoresApart H ⟨sh0, calls.map MCall.start⟩ sched)
    (s : MSys zl) (hs : s = MSys.run H ⟨sh0, calls.map MCall.start⟩ sched) :
    (∀ (i : Nat) (st : MStore) (r : Res MOut), calls[i]? = some (.store st) → s.threads[i]? = some (.done r) → (∀ e, st.fails = some e → r = .error e) ∧ (st.fails = none →
      ∃ n, r = .ok (.name n) ∧ (nameGet n s.sh.cache).isSome = true ∧ (st.binsha = none → n = H.digest st.pieces.flatten) ∧
        ∀ b, st.binsha = some b → b ≠ [] → n = b)) ∧
    (∀ n o, nameGet n s.sh.cache = some o → nameGet n sh0.cache = some o ∨ ∃ st, MCall.store st ∈ calls ∧ st.fails = none ∧ o.type = st.type ∧ o.size = st.size ∧
      (∃ m, o.reader = Reader.ofMap m ∧ IsZip zl m m.length st.pieces.flatten) ∧ (st.binsha = none → n = H.digest st.pieces.flatten) ∧
        ∀ b, st.binsha = some b → b ≠ [] → n = b) ∧
    (∀ n, (nameGet n sh0.cache).isSome = true → (nameGet n s.sh.cache).isSome = true) ∧
    ∀ (i : Nat) (n : Bytes) (r : Res MOut), calls[i]? = some (.has n) → s.threads[i]? = some (.done r) →
      ∃ b, r = .ok (.has b) ∧ (b = true → (nameGet n s.sh.cache).isSome = true) ∧ ((nameGet n sh0.cache).isSome = true → b = true) := by
  have h := minv_run (H := H) L sched _ (minv_start sh0 calls) hu
  rw [← hs] at h
  have hname : ∀ st : MStore, (st.binsha = none → st.goodName H = H.digest st.pieces.flatten) ∧ ∀ b, st.binsha = some b → b ≠ [] → st.goodName H = b := by
    intro st
    unfold MStore.goodName
    refine ⟨fun e => by rw [e], fun b e hb => ?_⟩
    rw [e]
    cases b with
    | nil => exact absurd rfl hb
    | cons _ _ => rfl
  refine ⟨?_, ?_, h.kept, ?_⟩
  · intro i st r hi hd
    obtain ⟨pc, hpc, hr⟩ := h.stores i st hi
    rw [hd] at hpc
    cases hpc
    exact ⟨hr.2, fun hf => ⟨_, (hr.1 hf).1, (hr.1 hf).2, hname st⟩⟩
  · intro n o ho
    rcases h.cache n o ho with e | ⟨st, h1, hf, rfl, rfl⟩
    · exact .inl e
    · exact .inr ⟨st, h1, hf, rfl, rfl, ⟨_, rfl, (wrote_spec L H st.pieces).2⟩, hname st⟩
  · intro i n r hi hd
    rcases h.has i n hi with e | ⟨b, e, e1, e2⟩ <;> rw [hd] at e <;> cases e
    exact ⟨b, rfl, e1, e2⟩

/-- **C117** whatever the interleaving, no name is lost from the database, -/
theorem C117_keeps (H : Hash) (n : Bytes) : ∀ (sched : List Nat) (s : MSys zl), (nameGet n s.sh.cache).isSome = true → (nameGet n (s.run H sched).sh.cache).isSome = true
  | [], _, h => h
  | i :: sched, s, h => by
    refine C117_keeps H n sched (s.step H i) ?_
    unfold MSys.step
    split
    · exact h
    · rename_i pc _
      have key : (mstep H zl s.sh pc).1.cache = s.sh.cache ∨ ∃ k v, (mstep H zl s.sh pc).1.cache = nameSet k v s.sh.cache := by
        cases pc
        case put => exact .inr ⟨_, _, rfl⟩
        all_goals
          left
          simp only [mstep]
          repeat' split
          all_goals rfl
      dsimp only
      rcases key with e | ⟨k, v, e⟩ <;> rw [e]
      · exact h
      · exact nameSet_isSome h

/-! ### the end of every call -/

/-- How many steps a thread has left at most. -/
def stepsLeft : MPc → Nat
  | .new s => 3 * s.pieces.length + 9
  | .install s _ => 3 * s.pieces.length + 8
  | .fetch s _ => 3 * s.pieces.length + 7
  | .hash _ _ _ l => 3 * l.length + 6
  | .comp _ _ _ _ l => 3 * l.length + 8
  | .buf _ _ _ _ l => 3 * l.length + 7
  | .flush .. => 5
  | .bufEnd .. => 4
  | .seek .. => 3
  | .value .. => 2
  | .put .. => 1
  | .has _ => 1
  | .done _ => 0

theorem mstep_left (sh : MShared zl) (pc : MPc) : stepsLeft (mstep H zl sh pc).2 ≤ stepsLeft pc - 1 := by
  cases pc <;> simp only [mstep]
  all_goals repeat' split
  all_goals simp only [stepsLeft, List.length_cons]
  all_goals omega

/-- **C117** and every call ends, after at most 9 steps and 3 for every piece. -/
theorem C117_ends (H : Hash) (i : Nat) : ∀ (sched : List Nat) (s : MSys zl) (pc : MPc), s.threads[i]? = some pc → stepsLeft pc ≤ sched.count i →
    ∃ r, (s.run H sched).threads[i]? = some (.done r)
  | [], s, pc, h, hl => by
    cases pc <;> simp only [stepsLeft, List.count_nil] at hl <;> try omega
    exact ⟨_, h⟩
  | j :: sched, s, pc, h, hl => by
    show ∃ r, ((s.step H j).run H sched).threads[i]? = some (.done r)
    by_cases hj : j = i
    · subst hj
      rw [List.count_cons_self] at hl
      have hm := mstep_left (H := H) s.sh pc
      refine C117_ends H j sched (s.step H j) (mstep H zl s.sh pc).2 ?_ (by omega)
      unfold MSys.step
      rw [h]
      exact set_get h
    · rw [List.count_cons_of_ne hj] at hl
      refine C117_ends H i sched (s.step H j) pc ?_ hl
      unfold MSys.step
      split
      · exact h
      · dsimp only
        rw [List.getElem?_set_ne hj]
        exact h

/-! ### what happens otherwise -/

/-- Some steps of one thread. -/
def msolo (H : Hash) (zl : Zlib) : Nat → MShared zl × MPc → MShared zl × MPc
  | 0, x => x
  | n + 1, x => msolo H zl n (mstep H zl x.1 x.2)

theorem msolo_add (a b : Nat) (x : MShared zl × MPc) : msolo H zl (a + b) x = msolo H zl b (msolo H zl a x) := by
  induction a generalizing x with
  | zero => rw [Nat.zero_add]; rfl
  | succ a ih => rw [show a + 1 + b = (a + b) + 1 by omega]; exact ih _

theorem run_solo (i : Nat) : ∀ (n : Nat) (s : MSys zl) (pc : MPc), s.threads[i]? = some pc →
    s.run H (List.replicate n i) = ⟨(msolo H zl n (s.sh, pc)).1, s.threads.set i (msolo H zl n (s.sh, pc)).2⟩
  | 0, s, pc, h => by
    have : s.threads.set i pc = s.threads := by
      apply List.ext_getElem?
      intro j
      by_cases hj : i = j
      · subst hj; rw [set_get h, h]
      · rw [List.getElem?_set_ne hj]
    simp only [msolo, this]
    rfl
  | n + 1, s, pc, h => by
    have e : s.step H i = ⟨(mstep H zl s.sh pc).1, s.threads.set i (mstep H zl s.sh pc).2⟩ := by unfold MSys.step; rw [h]
    rw [List.replicate_succ]
    show (s.step H i).run H (List.replicate n i) = _
    rw [e, run_solo i n _ _ (set_get h)]
    simp only [List.set_set]
    rfl

theorem solo_write (s : MStore) (z w : Nat) : ∀ (l ds : List Bytes) (sh : MShared zl), sh.writers[w]? = some ⟨wrote zl ds, false⟩ →
    msolo H zl (3 * l.length) (sh, .hash s z w l) = ({ sh with writers := sh.writers.set w ⟨wrote zl (ds ++ l), false⟩ }, .hash s z w [])
  | [], ds, sh, h => by
    have : sh.writers.set w ⟨wrote zl (ds ++ []), false⟩ = sh.writers := by
      apply List.ext_getElem?
      intro j
      by_cases hj : w = j
      · subst hj; rw [set_get h, h, List.append_nil]
      · rw [List.getElem?_set_ne hj]
    rw [this]
    rfl
  | d :: l, ds, sh, h => by
    have e : msolo H zl 3 (sh, .hash s z w (d :: l)) = ({ sh with writers := sh.writers.set w ⟨wrote zl (ds ++ [d]), false⟩ }, .hash s z w l) := by
      have e1 : mstep H zl sh (.hash s z w (d :: l)) = ({ sh with writers := sh.writers.set w ⟨{ wrote zl ds with sha1 := ((wrote zl ds).sha1.write d).1 }, false⟩ },
          .comp s z w d l) := by simp only [mstep, h]
      have e2 : mstep H zl { sh with writers := sh.writers.set w ⟨{ wrote zl ds with sha1 := ((wrote zl ds).sha1.write d).1 }, false⟩ } (.comp s z w d l) =
          ({ sh with writers := sh.writers.set w ⟨{ wrote zl ds with sha1 := ((wrote zl ds).sha1.write d).1, zip := (zl.ccompress (wrote zl ds).zip d).1 }, false⟩ },
          .buf s z w (zl.ccompress (wrote zl ds).zip d).2 l) := by
        simp only [mstep, set_get h, List.set_set]
        rfl
      have e3 : mstep H zl { sh with writers := sh.writers.set w ⟨{ wrote zl ds with sha1 := ((wrote zl ds).sha1.write d).1, zip := (zl.ccompress (wrote zl ds).zip d).1 }, false⟩ }
          (.buf s z w (zl.ccompress (wrote zl ds).zip d).2 l) = ({ sh with writers := sh.writers.set w ⟨wrote zl (ds ++ [d]), false⟩ }, .hash s z w l) := by
        simp only [mstep, set_get h, List.set_set, wrote_snoc]
        rfl
      simp only [msolo, e1, e2, e3]
    rw [List.length_cons, show 3 * (l.length + 1) = 3 + 3 * l.length by omega, msolo_add, e, solo_write s z w l (ds ++ [d]) _ (set_get h)]
    simp only [List.set_set, List.append_assoc, List.singleton_append]

theorem solo_end (s : MStore) (hs : s.binsha = none) (hf : s.fails = none) (z w : Nat) (sh : MShared zl) (x y : ZippedStoreShaWriter zl) (hx : sh.writers[w]? = some ⟨x, false⟩)
    (hy : sh.writers[z]? = some ⟨y, false⟩) : ∃ y', msolo H zl 6 (sh, .hash s z w []) =
      (⟨sh.installed, sh.writers.set z y', nameSet (H.digest x.sha1.hashed) { type := s.type, size := s.size, reader := .ofMap y.close.getvalue } sh.cache⟩,
        .done (.ok (.name (H.digest x.sha1.hashed)))) := by
  refine ⟨⟨(y.close.seek 0 0).1, true⟩, ?_⟩
  have e1 : mstep H zl sh (.hash s z w []) = (sh, .flush s z (H.digest x.sha1.hashed)) := by
    simp only [mstep, hx, hs, hf]
    rfl
  generalize H.digest x.sha1.hashed = n at e1 ⊢
  have e2 : mstep H zl sh (.flush s z n) = ({ sh with writers := sh.writers.set z ⟨y, true⟩ }, .bufEnd s z n (zl.cflush y.zip)) := by
    simp only [mstep, hy]
    rfl
  have e3 : mstep H zl { sh with writers := sh.writers.set z ⟨y, true⟩ } (.bufEnd s z n (zl.cflush y.zip)) =
      ({ sh with writers := sh.writers.set z ⟨y.close, true⟩ }, .seek s z n) := by
    simp only [mstep, set_get hy, List.set_set]
    rfl
  have e4 : mstep H zl { sh with writers := sh.writers.set z ⟨y.close, true⟩ } (.seek s z n) =
      ({ sh with writers := sh.writers.set z ⟨(y.close.seek 0 0).1, true⟩ }, .value s z n) := by
    simp only [mstep, set_get hy, List.set_set]
    rfl
  have e5 : mstep H zl { sh with writers := sh.writers.set z ⟨(y.close.seek 0 0).1, true⟩ } (.value s z n) =
      ({ sh with writers := sh.writers.set z ⟨(y.close.seek 0 0).1, true⟩ }, .put s n y.close.getvalue) := by
    simp only [mstep, set_get hy]
    rfl
  simp only [msolo, e1, e2, e3, e4, e5]
  rfl

theorem mrun_append (s : MSys zl) (a b : List Nat) : s.run H (a ++ b) = (s.run H a).run H b := List.foldl_append ..

/-- **C117** otherwise objects are lost: whatever the two objects (that come without names), there is an interleaving of their stores in which both return, the first one with its name and
the second one with the name of both together.  Under the name of the first one there is nothing then (an empty compressed stream), under the other name both together, and otherwise
the database is as it was: the second object is not there. -/
theorem C117_mixed (L : ZlibLaws zl) (H : Hash) (sh0 : MShared zl) (a b : MStore) (ha : a.binsha = none) (hb : b.binsha = none) (ha' : a.fails = none)
    (hb' : b.fails = none) :
    ∃ sched, let s := MSys.run H ⟨sh0, [MPc.new a, MPc.new b]⟩ sched
      let A := a.pieces.flatten
      let B := b.pieces.flatten
      s.threads = [.done (.ok (.name (H.digest A))), .done (.ok (.name (H.digest (A ++ B))))] ∧
      (H.digest A ≠ H.digest (A ++ B) → ∃ m, nameGet (H.digest A) s.sh.cache = some ⟨a.type, a.size, .ofMap m⟩ ∧ IsZip zl m m.length []) ∧
      (∃ m, nameGet (H.digest (A ++ B)) s.sh.cache = some ⟨b.type, b.size, .ofMap m⟩ ∧ IsZip zl m m.length (A ++ B)) ∧
      ∀ n, n ≠ H.digest A → n ≠ H.digest (A ++ B) → nameGet n s.sh.cache = nameGet n sh0.cache := by
  obtain ⟨inst, ws, cache⟩ := sh0
  refine ⟨[0, 0, 1, 1] ++ (List.replicate (1 + (3 * a.pieces.length + 6)) 0 ++ List.replicate (1 + (3 * b.pieces.length + 6)) 1), ?_⟩
  have e0 : MSys.run H ⟨⟨inst, ws, cache⟩, [MPc.new a, MPc.new b]⟩ [0, 0, 1, 1] =
      ⟨⟨some (ws.length + 1), ws ++ [⟨.new zl, false⟩, ⟨.new zl, false⟩], cache⟩, [MPc.fetch a ws.length, MPc.fetch b (ws.length + 1)]⟩ := by
    simp [MSys.run, MSys.step, mstep]
  -- the first thread alone
  have h1 : (ws ++ [(⟨.new zl, false⟩ : ZippedLife zl), ⟨.new zl, false⟩])[ws.length + 1]? = some ⟨wrote zl [], false⟩ := by
    rw [List.getElem?_append_right (by omega)]; simp [wrote]
  have h1' : (ws ++ [(⟨.new zl, false⟩ : ZippedLife zl), ⟨.new zl, false⟩])[ws.length]? = some ⟨wrote zl [], false⟩ := by
    rw [List.getElem?_append_right (by omega)]; simp [wrote]
  generalize ws ++ [(⟨.new zl, false⟩ : ZippedLife zl), ⟨.new zl, false⟩] = W at e0 h1 h1'
  have e1 := solo_write (H := H) a ws.length (ws.length + 1) a.pieces [] ⟨some (ws.length + 1), W, cache⟩ h1
  rw [List.nil_append] at e1
  have h2 : (W.set (ws.length + 1) (⟨wrote zl a.pieces, false⟩ : ZippedLife zl))[ws.length]? = some ⟨wrote zl [], false⟩ := by
    rw [List.getElem?_set_ne (by omega)]; exact h1'
  obtain ⟨y1, e2⟩ := solo_end (H := H) a ha ha' ws.length (ws.length + 1) ⟨some (ws.length + 1), W.set (ws.length + 1) ⟨wrote zl a.pieces, false⟩, cache⟩ _ _ (set_get h1) h2
  have e3 : ∀ X, msolo H zl 6 (msolo H zl (3 * a.pieces.length) (⟨some (ws.length + 1), W, cache⟩, MPc.hash a ws.length (ws.length + 1) a.pieces)) = X → msolo H zl (1 + (3 * a.pieces.length + 6)) (⟨some (ws.length + 1), W, cache⟩, MPc.fetch a ws.length) = X := by
    intro X hX
    rw [msolo_add, msolo_add]
    exact hX
  rw [e1] at e3
  replace e3 := e3 _ e2
  -- the second thread alone
  have h3 : ((W.set (ws.length + 1) (⟨wrote zl a.pieces, false⟩ : ZippedLife zl)).set ws.length y1)[ws.length + 1]? = some ⟨wrote zl a.pieces, false⟩ := by
    rw [List.getElem?_set_ne (by omega)]; exact set_get h1
  dsimp only at e3
  generalize (W.set (ws.length + 1) (⟨wrote zl a.pieces, false⟩ : ZippedLife zl)).set ws.length y1 = V at e3 h3
  generalize hC : nameSet (H.digest (wrote zl a.pieces).sha1.hashed) (⟨a.type, a.size, Reader.ofMap (wrote zl []).close.getvalue⟩ : MemObj) cache = C at e3
  have e4 := solo_write (H := H) b (ws.length + 1) (ws.length + 1) b.pieces a.pieces ⟨some (ws.length + 1), V, C⟩ h3
  obtain ⟨y2, e5⟩ := solo_end (H := H) b hb hb' (ws.length + 1) (ws.length + 1) ⟨some (ws.length + 1), V.set (ws.length + 1) ⟨wrote zl (a.pieces ++ b.pieces), false⟩, C⟩ _ _
    (set_get h3) (set_get h3)
  have e6 : ∀ X, msolo H zl 6 (msolo H zl (3 * b.pieces.length) (⟨some (ws.length + 1), V, C⟩, MPc.hash b (ws.length + 1) (ws.length + 1) b.pieces)) = X → msolo H zl (1 + (3 * b.pieces.length + 6)) (⟨some (ws.length + 1), V, C⟩, MPc.fetch b (ws.length + 1)) = X := by
    intro X hX
    rw [msolo_add, msolo_add]
    exact hX
  rw [e4] at e6
  replace e6 := e6 _ e5
  have hA := wrote_spec L H a.pieces
  have hAB := wrote_spec L H (a.pieces ++ b.pieces)
  rw [List.flatten_append] at hAB
  dsimp only
  rw [mrun_append, e0, mrun_append, run_solo 0 _ _ (MPc.fetch a ws.length) rfl]
  dsimp only
  rw [e3, run_solo 1 _ _ (MPc.fetch b (ws.length + 1)) rfl]
  dsimp only
  rw [e6]
  dsimp only
  rw [hA.1] at hC
  rw [hA.1, hAB.1]
  subst hC
  refine ⟨rfl, fun hne => ⟨_, by rw [nameGet_set_other _ hne, nameGet_set_same], (wrote_spec L H []).2⟩, ⟨_, nameGet_set_same _ _ _, hAB.2⟩, fun n h1 h2 => ?_⟩
  rw [nameGet_set_other _ h2, nameGet_set_other _ h1]

/-! ### examples -/

/-- A test for `StoresApart`. -/
def storesApartTest (H : Hash) (s : MSys zl) : List Nat → Bool
  | [] => true
  | i :: sched => ((match s.threads[i]? with
      | some (.install _ _) => false
      | _ => true) || s.threads.all (fun pc => match pc with
      | .fetch _ _ => false
      | _ => true)) && storesApartTest H (s.step H i) sched

theorem storesApart_of_test : ∀ (sched : List Nat) (s : MSys zl), storesApartTest H s sched = true → StoresApart H s sched
  | [], _, _ => trivial
  | i :: sched, s, h => by
    simp only [storesApartTest, Bool.and_eq_true, Bool.or_eq_true] at h
    refine ⟨?_, storesApart_of_test sched _ h.2⟩
    rintro ⟨st, z, e⟩ j st' z' hj
    rcases h.1 with h1 | h1
    · rw [e] at h1; cases h1
    · have := List.all_eq_true.1 h1 _ (List.mem_of_getElem? hj)
      cases this

/-- Two blobs, the second one in two chunks. -/
def memA : MStore := ⟨strBlobType, 2, none, [[98, 108, 111, 98, 32, 50, 0], [65, 66]], none⟩
def memB : MStore := ⟨strBlobType, 3, none, [[98, 108, 111, 98, 32, 51, 0], [67, 68], [69]], none⟩
/-- Both stores write in turns, and someone asks for the first object in between and afterwards. -/
def memSched : List Nat := [0, 0, 1, 0, 1, 1, 0, 1, 0, 1, 2, 0, 1, 0, 1, 0, 1, 0, 1, 0, 1, 0, 1, 0, 0, 0, 0, 3, 1, 1, 1, 1, 1, 1, 1, 1]
def memCalls : List MCall := [.store memA, .store memB, .has (lenHash.digest memA.pieces.flatten), .has (lenHash.digest memA.pieces.flatten)]

example := C117_stores (H := lenHash) toyZlib_laws {} memCalls memSched (storesApart_of_test _ _ (by decide +kernel)) _ rfl
example : (MSys.run lenHash (zl := toyZlib) ⟨{}, memCalls.map MCall.start⟩ memSched).threads =
    [.done (.ok (.name (List.replicate 20 9))), .done (.ok (.name (List.replicate 20 10))), .done (.ok (.has false)), .done (.ok (.has true))] := by decide +kernel
/-- The source of the first object raises after its header, while the second one is written. -/
def memFail : MStore := ⟨strBlobType, 2, none, [[98, 108, 111, 98, 32, 50, 0]], some .osError⟩
def memFailSched : List Nat := [0, 0, 0, 1, 1, 1, 0, 1, 0, 1, 0, 1, 0] ++ List.replicate 20 1 ++ [2]
def memFailCalls : List MCall := [.store memFail, .store memB, .has (lenHash.digest memFail.pieces.flatten)]
example := C117_stores (H := lenHash) toyZlib_laws {} memFailCalls memFailSched (storesApart_of_test _ _ (by decide +kernel)) _ rfl
example : (MSys.run lenHash (zl := toyZlib) ⟨{}, memFailCalls.map MCall.start⟩ memFailSched).threads =
    [.done (.error .osError), .done (.ok (.name (List.replicate 20 10))), .done (.ok (.has false))] := by decide +kernel
example := C117_mixed toyZlib_laws lenHash {} memA memB rfl rfl rfl rfl
example : lenHash.digest memA.pieces.flatten ≠ lenHash.digest (memA.pieces.flatten ++ memB.pieces.flatten) := by decide +kernel
example := C117_ends lenHash 0 memSched (zl := toyZlib) ⟨{}, memCalls.map MCall.start⟩ _ rfl (by decide +kernel)
/-- In yet another interleaving the first store asks for the stream, which is that of the second one; the second one ends, and the first one raises `zlib.error`. -/
example : (MSys.run lenHash (zl := toyZlib) ⟨{}, [MPc.new memA, MPc.new memB]⟩ ([0, 0, 1, 1, 0] ++ List.replicate 20 1 ++ [0, 0])).threads =
    [.done (.error .zlibError), .done (.ok (.name (List.replicate 20 10)))] := by decide +kernel

end GitDB.Props
