import Verif.Props.Compound
import Verif.Props.Contains
import Verif.Props.Details
import Verif.Props.Writers
/-!
# C17, C46, C49, C51: reading through `FDStream`, results of `update_cache`, an attribute `has_obj`, stray files
-/
set_option autoImplicit false

namespace GitDB.Props
open GitDB Spec

variable {ω σ α : Type}

/-! ## C17 -/

/-- `read` calls on a descriptor whose unread bytes are `d`. -/
def fdReads : FDStream → Bytes → List Nat → FDStream × List (Res Bytes)
  | s, _, [] => (s, [])
  | s, d, k :: ks =>
    let r := s.read d k
    let q := fdReads r.1 (if k = 0 then d else d.drop k) ks
    (q.1, r.2 :: q.2)

/-- **C17** However an `FDStream` is read, each `read(k)` gives the next `k` bytes of the file, or those that are left, and `tell()`
counts the bytes that were there; `read()` raises `AttributeError` and takes nothing. -/
theorem C17_fd_stream_read (s : FDStream) (d : Bytes) (ks : List Nat) (k : Nat) :
    let before := (fdReads s d ks).1
    before.pos = s.pos + min ks.sum d.length ∧
    (fdReads s d (ks ++ [k])).2 = (fdReads s d ks).2 ++ [if k = 0 then .error .attributeError else .ok ((d.drop ks.sum).take k)] := by
  induction ks generalizing s d with
  | nil => refine ⟨by simp [fdReads], ?_⟩; simp only [List.nil_append, fdReads, FDStream.read]; split <;> rfl
  | cons j ks ih =>
    obtain ⟨h1, h2⟩ := ih (s.read d j).1 (if j = 0 then d else d.drop j)
    refine ⟨?_, ?_⟩
    · show (fdReads (s.read d j).1 (if j = 0 then d else d.drop j) ks).1.pos = _
      rw [h1]
      unfold FDStream.read
      by_cases hj : j = 0
      · simp [hj]
      · simp only [if_neg hj, List.length_take, List.length_drop, List.sum_cons]
        omega
    · show (s.read d j).2 :: (fdReads (s.read d j).1 (if j = 0 then d else d.drop j) (ks ++ [k])).2 =
        (s.read d j).2 :: (fdReads (s.read d j).1 (if j = 0 then d else d.drop j) ks).2 ++ _
      rw [h2, List.cons_append]
      congr 3
      by_cases hj : j = 0
      · simp [hj]
      · simp [if_neg hj]

example : (fdReads { fd := {} } [1, 2, 3, 4, 5] [2, 0, 9, 3]) =
    ({ fd := {}, pos := 5 }, [.ok [1, 2], .error .attributeError, .ok [3, 4, 5], .ok []]) := by decide

/-! ## C46 -/

/-- **C46** `update_cache` of a compound database, however nested, says whether one of its databases says that it has changed. -/
theorem C46_update (O : DbOps ω σ α) (w : ω) (force : Bool) (k : σ → Option Bool) : ∀ (n : Nat) (t : Nest σ n), isCompound n t = true →
    (∀ s ∈ leaves n t, (O.update w s force).2 = .ok (k s)) →
    ((nestOps O n).update w t force).2 = .ok (some (decide (∃ s ∈ leaves n t, k s = some true)))
  | 0, s, hc, _ => by cases hc
  | n + 1, .inl s, hc, _ => by cases hc
  | n + 1, .inr c, _, h => by
    have key : ∀ d ∈ c.dbs, ∃ b, ((nestOps O n).update w d force).2 = .ok b ∧ (b = some true ↔ ∃ s ∈ leaves n d, k s = some true) := by
      intro d hd
      have hs := fun s hs => h s (List.mem_flatMap.mpr ⟨d, hd, hs⟩)
      by_cases hcd : isCompound n d = true
      · exact ⟨_, C46_update O w force k n d hcd hs, by simp⟩
      · cases n with
        | zero =>
          have hs := hs d (List.mem_singleton.mpr rfl)
          exact ⟨_, hs, fun e => ⟨d, List.mem_singleton.mpr rfl, e⟩, fun ⟨x, hx, e⟩ => List.mem_singleton.mp hx ▸ e⟩
        | succ n =>
          rcases d with s | c'
          · have hs := hs s (List.mem_singleton.mpr rfl)
            exact ⟨_, hs, by simp [leaves]⟩
          · exact absurd rfl hcd
    let g : Nest σ n → Option Bool := fun d => match ((nestOps O n).update w d force).2 with | .ok b => b | .error _ => none
    have hg : ∀ d ∈ c.dbs, ((nestOps O n).update w d force).2 = .ok (g d) ∧ (g d = some true ↔ ∃ s ∈ leaves n d, k s = some true) := by
      intro d hd
      obtain ⟨b, h1, h2⟩ := key d hd
      have : g d = b := by simp only [g, h1]
      rw [this]
      exact ⟨h1, h2⟩
    show (eachDb (fun s => (nestOps O n).update w s force) c.dbs).2.map _ = _
    rw [eachDb_map (γ := Unit) (g := g) c.dbs fun d hd => (hg d hd).1]
    show Except.ok (some ((c.dbs.map g).any (· == some true))) = _
    congr 2
    rw [Bool.eq_iff_iff, List.any_eq_true, decide_eq_true_iff]
    constructor
    · rintro ⟨b, hb, e⟩
      obtain ⟨d, hd, rfl⟩ := List.mem_map.mp hb
      obtain ⟨s, h1, h2⟩ := (hg d hd).2.mp (by simpa using e)
      exact ⟨s, List.mem_flatMap.mpr ⟨d, hd, h1⟩, h2⟩
    · rintro ⟨s, h1, h2⟩
      obtain ⟨d, hd, h3⟩ := List.mem_flatMap.mp h1
      exact ⟨g d, List.mem_map.mpr ⟨d, hd, rfl⟩, by simpa using (hg d hd).2.mpr ⟨s, h3, h2⟩⟩

/-- **C46** Databases of objects in memory and of files are not caching databases: a compound database of such databases never says that
it has changed. -/
theorem C46_update_memory (n : Nat) (t : Nest MemDB n) (hc : isCompound n t = true) (force : Bool) :
    ((nestOps memoryOps n).update () t force).2 = .ok (some false) := by
  rw [C46_update memoryOps () force (fun _ => none) n t hc fun _ _ => rfl]
  simp

/-- **C46** for objects in memory: `size` counts, and `sha_iter` lists, every object in every database. -/
theorem C46_census_memory (n : Nat) (t : Nest MemDB n) :
    ((nestOps memoryOps n).size () t).2 = .ok ((leaves n t).map fun db => db.shaIter.length).sum ∧
    ((nestOps memoryOps n).shas () t).2 = .ok ((leaves n t).flatMap MemDB.shaIter) := by
  refine ⟨?_, C46_sha_iter memoryOps () MemDB.shaIter n t fun _ _ => rfl⟩
  refine C46_size memoryOps () (fun db => db.shaIter.length) n t fun db _ => ?_
  show Except.ok db.size = _
  simp [MemDB.size, MemDB.shaIter]

example : ((nestOps memoryOps 2).size () memTree).2 = .ok 5 := (C46_census_memory 2 memTree).1

/-- What `os.walk` yields for objects grouped by the first byte of their name. -/
def walkOf (dirs : List (UInt8 × List Bytes)) : List (Bytes × List Bytes) := dirs.map fun d => (binToHex [d.1], d.2.map binToHex)

theorem walkOf_names : ∀ (dirs : List (UInt8 × List Bytes)), (∀ d ∈ dirs, ∀ r ∈ d.2, r.length = 19) →
    shaIter (walkOf dirs) = (dirs.flatMap fun d => d.2.map (d.1 :: ·)).map .ok
  | [], _ => rfl
  | d :: dirs, h => by
    have key : ∀ rs : List Bytes, (∀ r ∈ rs, r.length = 19) →
        shaIterFiles (binToHex [d.1]) (rs.map binToHex) = (rs.map (d.1 :: ·)).map .ok := by
      intro rs
      induction rs with
      | nil => intro _; rfl
      | cons r rs ih =>
        intro hr
        have h1 : (binToHex r).length = 38 := by rw [binToHex_length, hr r (by simp)]
        have h2 : binToHex [d.1] ++ binToHex r = binToHex (d.1 :: r) := rfl
        simp only [List.map_cons, shaIterFiles, h1, h2, hexToBin_binToHex, ih fun x hx => hr x (by simp [hx])]
        simp
    have ih := walkOf_names dirs fun x hx => h x (by simp [hx])
    have hl : (binToHex [d.1]).length = 2 := by rw [binToHex_length]; rfl
    simp only [walkOf, shaIter, List.map_cons, List.flatMap_cons, hl, key d.2 (h d (by simp)), List.map_append] at ih ⊢
    rw [ih]
    simp

theorem looseCount_ok : ∀ l : List Bytes, shaCount (l.map .ok) = .ok l.length
  | [] => rfl
  | _ :: l => by simp [shaCount, looseCount_ok l]

/-- **C46** for loose objects: every database below counts, and lists, every file of the directory. -/
theorem C46_census_loose (get : Fs → Bytes → Res α) (fs : Fs) (dirs : List (UInt8 × List Bytes))
    (h : ∀ d ∈ dirs, ∀ r ∈ d.2, r.length = 19) (n : Nat) (t : Nest LooseDB n) :
    ((nestOps (looseOps get) n).size (fs, walkOf dirs) t).2 =
      .ok ((leaves n t).map fun _ => (dirs.map fun d => d.2.length).sum).sum ∧
    ((nestOps (looseOps get) n).shas (fs, walkOf dirs) t).2 =
      .ok ((leaves n t).flatMap fun _ => dirs.flatMap fun d => d.2.map (d.1 :: ·)) := by
  have e := walkOf_names dirs h
  have hm : ∀ l : List Bytes, (l.map (Except.ok (ε := Err))).mapM id = .ok l := by
    intro l
    induction l with
    | nil => rfl
    | cons x l ih => rw [List.map_cons, List.mapM_cons, ih]; rfl
  constructor
  · refine C46_size (looseOps get) (fs, walkOf dirs) (fun _ => (dirs.map fun d => d.2.length).sum) n t fun db _ => ?_
    show shaCount (shaIter (walkOf dirs)) = _
    rw [e, looseCount_ok, List.length_flatMap]
    simp
  · refine C46_sha_iter (looseOps get) (fs, walkOf dirs) (fun _ => dirs.flatMap fun d => d.2.map (d.1 :: ·)) n t fun db _ => ?_
    show (shaIter (walkOf dirs)).mapM id = _
    rw [e, hm]

example : ((nestOps (looseOps fun _ _ => (.ok () : Res Unit)) 1).size
      (fun _ => none, walkOf [(1, [List.replicate 19 2, List.replicate 19 3]), (9, [List.replicate 19 4])])
      (.inr { dbs := [({} : LooseDB), ({} : LooseDB)] })).2 = .ok 6 :=
  (C46_census_loose _ _ _ (by decide) 1 _).1

theorem C46_update_loose (get : Fs → Bytes → Res α) (w : Fs × List (Bytes × List Bytes)) (n : Nat) (t : Nest LooseDB n)
    (hc : isCompound n t = true) (force : Bool) : ((nestOps (looseOps get) n).update w t force).2 = .ok (some false) := by
  rw [C46_update (looseOps get) w force (fun _ => none) n t hc fun _ _ => rfl]
  simp

example : ((nestOps memoryOps 2).update () memTree true).2 = .ok (some false) := C46_update_memory 2 memTree rfl true
/-- Numbers as databases, which have changed if they are odd. -/
example :
    let O : DbOps Unit Nat Unit := ⟨fun _ s _ => (s, .ok true), fun _ s _ => (s, .ok ()), fun _ s => (s, .ok s), fun _ s => (s, .ok []),
      fun _ s _ => (s + 1, .ok (some (s % 2 == 1))), fun _ s _ => (s, .error .badObject)⟩
    ((nestOps O 2).update () (.inr { dbs := [.inr { dbs := [(2 : Nat), (4 : Nat)] }, .inl 6, .inr { dbs := [(8 : Nat), (5 : Nat), (2 : Nat)] }] }) false).2 =
      .ok (some true) ∧
    ((nestOps O 2).update () (.inr { dbs := [.inr { dbs := [(2 : Nat), (4 : Nat)] }, .inl 6] }) false).2 = .ok (some false) := by
  intro O
  exact ⟨(C46_update O () false (fun s => some (s % 2 == 1)) 2 _ rfl fun _ _ => rfl).trans (by decide),
    (C46_update O () false (fun s => some (s % 2 == 1)) 2 _ rfl fun _ _ => rfl).trans (by decide)⟩

/-! ## C49 -/

/-- **C49, finding.**  With an attribute `has_obj` provided by the program, its truth value is the answer for every name. -/
theorem C49_attribute (db : DbObject) (b : Bool) (pre post : List (String × Bool)) (h : db.extra = pre ++ ("has_obj", b) :: post)
    (hp : ∀ x ∈ pre, x.1 ≠ "has_obj") (sha : Bytes) : db.contains sha = .ok b := by
  have hl : db.extra.lookup "has_obj" = some b := by
    rw [h]
    clear h
    induction pre with
    | nil => simp
    | cons x pre ih =>
      obtain ⟨n, c⟩ := x
      have hn : ("has_obj" == n) = false := by
        have := hp (n, c) List.mem_cons_self
        simpa using fun e => this e.symm
      rw [List.cons_append, List.lookup_cons, hn]
      exact ih fun y hy => hp y (List.mem_cons_of_mem _ hy)
  simp only [DbObject.contains, DbObject.getattr, hl]

example (sha : Bytes) := C49_attribute ⟨.packed, [("x", true), ("has_obj", false)]⟩ false [("x", true)] [] rfl (by decide) sha

/-! ## C51 -/

/-- The files that look like objects: those of 38 characters in directories of two. -/
def objectLike (walk : List (Bytes × List Bytes)) : List Bytes :=
  walk.flatMap fun d => if d.1.length = 2 then (d.2.filter fun f => decide (f.length = 38)).map (d.1 ++ ·) else []

theorem shaIter_objectLike (walk : List (Bytes × List Bytes)) : shaIter walk = (objectLike walk).map hexToBin := by
  unfold shaIter objectLike
  rw [List.map_flatMap]
  congr 1
  funext d
  by_cases h : d.1.length = 2
  · rw [if_neg (by omega), if_pos h]
    induction d.2 with
    | nil => rfl
    | cons f fs ih =>
      unfold shaIterFiles
      by_cases hf : f.length = 38
      · simp [hf, ih]
      · simp [hf, ih]
  · rw [if_pos h, if_neg h]
    rfl

/-- **C51** Whatever is in the directories of a loose database: if the names of all files that look like objects are hex digits, `size()`
is their number; otherwise it raises `binascii.Error`. -/
theorem C51_size (walk : List (Bytes × List Bytes)) :
    ((∀ h ∈ objectLike walk, ∃ b, IsHexOf (h.map lowerDigit) b) → shaCount (shaIter walk) = .ok (objectLike walk).length) ∧
    ((∃ h ∈ objectLike walk, ¬ ∃ b, IsHexOf (h.map lowerDigit) b) → shaCount (shaIter walk) = .error .binasciiError) := by
  rw [shaIter_objectLike]
  generalize objectLike walk = l
  induction l with
  | nil => exact ⟨fun _ => rfl, fun ⟨h, hm, _⟩ => by cases hm⟩
  | cons a l ih =>
    have hd := C05_decodes a
    rw [List.map_cons]
    rcases ha : hexToBin a with e | b
    · have : e = .binasciiError := by
        rcases (hd []).2 with ⟨b, hb⟩ | hb
        · rw [ha] at hb; cases hb
        · rw [ha] at hb; exact Except.error.inj hb
      subst this
      refine ⟨fun h => ?_, fun _ => rfl⟩
      obtain ⟨b, hb⟩ := h a List.mem_cons_self
      rw [((hd b).1).mpr hb] at ha
      cases ha
    · have hab := (hd b).1.mp ha
      constructor
      · intro h
        simp only [shaCount, ih.1 fun x hx => h x (List.mem_cons_of_mem _ hx), List.length_cons]
      · rintro ⟨x, hx, hno⟩
        rcases List.mem_cons.mp hx with rfl | hx
        · exact absurd ⟨b, hab⟩ hno
        · simp only [shaCount, ih.2 ⟨x, hx, hno⟩]

/-- Two files that look like objects, the second is none. -/
example : objectLike [([97, 98], [List.replicate 38 98, [1], List.replicate 38 120]), ([97], [List.replicate 38 98])] =
    [97 :: List.replicate 39 98, 97 :: 98 :: List.replicate 38 120] := by decide +kernel
example : shaCount (shaIter [([97, 98], [List.replicate 38 98, [1], List.replicate 38 120])]) = .error .binasciiError :=
  (C51_size _).2 ⟨97 :: 98 :: List.replicate 38 120, by decide +kernel, fun ⟨b, hb⟩ => by
    have := ((C05_decodes (97 :: 98 :: List.replicate 38 120) b).1).mpr hb
    rw [show hexToBin (97 :: 98 :: List.replicate 38 120) = .error .binasciiError by decide +kernel] at this
    cases this⟩

end GitDB.Props
