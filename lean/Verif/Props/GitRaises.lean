import Verif.Props.Invent
import Verif.Props.AnyBytes
import Verif.Model.Transfer
/-!
# C94: exceptions of loose objects and of a `GitDB` on any disk
-/
set_option autoImplicit false

namespace GitDB.Props
open GitDB Spec

variable {ω σ τ α β : Type}

/-! ## Loose objects -/

theorem mapLoose_raises (fs : Fs) (noatime second : Bool) (sha : Bytes) :
    Raises (mapLooseObject fs noatime second sha) [.badObject, .valueError] := by
  unfold mapLooseObject
  rcases fs (objectPath (binToHex sha)) with _ | (_ | ⟨d, m⟩)
  · exact raises_error (by simp)
  · cases noatime <;> cases second <;> exact raises_error (by simp)
  · rcases d with _ | ⟨b, d⟩ <;> cases noatime <;> cases second <;> first | exact raises_ok _ | exact raises_error (by simp)

theorem headerInfo_raises (zl : Zlib) (m : Bytes) : Raises (looseObjectHeaderInfo zl m) [.valueError, .zlibError] := by
  have h1 : Raises (ZDec.decompress zl {} m maxHeader).2 [.valueError, .zlibError] := by
    have key : ∀ z : ZDec, Raises (ZDec.decompress zl z m maxHeader).2 [.valueError, .zlibError] := by
      intro z
      unfold ZDec.decompress
      by_cases k1 : (maxHeader : Int) < 0
      · rw [if_pos k1]; exact raises_error (by simp)
      rw [if_neg k1]
      by_cases k2 : z.eof = true
      · rw [if_pos k2]; exact raises_ok _
      rw [if_neg k2]
      by_cases k3 : z.broken = true
      · rw [if_pos k3]; exact raises_error (by simp)
      rw [if_neg k3]
      simp only
      split
      · exact raises_ok _
      · split
        · exact raises_error (by simp)
        · split <;> exact raises_ok _
    exact key {}
  have h2 : ∀ b, Raises (pyInt b) [.valueError] := by
    intro b
    unfold pyInt
    simp only
    split
    · exact raises_ok _
    · exact raises_error (by simp)
  unfold looseObjectHeaderInfo
  rcases hx : ZDec.decompress zl {} m maxHeader with ⟨z, e | hdr⟩
  · rw [hx] at h1
    exact fun e' he' => h1 e' (by simpa using he')
  · have h3 : Raises (parseObjectHeader hdr) [.valueError] := by
      unfold parseObjectHeader
      simp only
      split
      · next size _ =>
        rcases hy : pyInt size with e | n
        · exact (h2 size).of hy (fun _ h => h)
        · exact raises_ok _
      · exact raises_error (by simp)
    simp only
    rcases hy : parseObjectHeader hdr with e | ⟨ty, n, k⟩
    · exact h3.of hy (by simp)
    · exact raises_ok _

/-- **C94** `stream(sha)` and `info(sha)` of a `LooseObjectDB`, whatever is in the place of the object. -/
theorem C94_loose (zl : Zlib) (L : ZlibLaws zl) (fs : Fs) (noatime second : Bool) (sha : Bytes) :
    Raises (looseStream zl fs noatime second sha) [.badObject, .valueError, .zlibError] ∧
    Raises (looseInfo zl fs noatime second sha) [.badObject, .valueError, .zlibError] := by
  have h := mapLoose_raises fs noatime second sha
  unfold looseStream looseInfo
  rcases hm : mapLooseObject fs noatime second sha with e | m
  · exact ⟨h.of hm (by simp), h.of hm (by simp)⟩
  · constructor
    · simp only
      rcases C69_object zl L m with ⟨k, -⟩ | k | ⟨_, _, _, _, _, k, -⟩ <;> rw [k]
      · exact raises_error (by simp)
      · exact raises_error (by simp)
      · exact raises_ok _
    · exact (headerInfo_raises zl m).mono (by simp)

/-! ## Reading operations of a database -/

/-- What reading operations raise, in any state: `H` for `has_object`, `G` for `stream`, `L` for `size` and `sha_iter`. -/
structure ReadsRaise (O : DbOps ω σ α) (w : ω) (H G L : List Err) : Prop where
  has : ∀ s sha, sha ≠ [] → Raises (O.has w s sha).2 H
  get : ∀ s sha, sha ≠ [] → Raises (O.get w s sha).2 G
  size : ∀ s, Raises (O.size w s).2 L
  shas : ∀ s, Raises (O.shas w s).2 L

theorem onDb_raises {f : σ → σ × Res β} {S : List Err} (hi : Err.indexError ∈ S) (h : ∀ s, Raises (f s).2 S) :
    ∀ (l : List σ) (i : Nat), Raises (onDb f l i).2 S
  | [], _ => raises_error hi
  | s :: _, 0 => h s
  | _ :: l, i + 1 => onDb_raises hi h l i

theorem eachDb_raises {f : σ → σ × Res β} {S : List Err} (h : ∀ s, Raises (f s).2 S) : ∀ l : List σ, Raises (eachDb f l).2 S
  | [] => raises_ok _
  | s :: l => by
    have h1 := h s
    have h2 := eachDb_raises h l
    unfold eachDb
    rcases hf : f s with ⟨s', e | x⟩
    · rw [hf] at h1
      exact fun e' he' => h1 e' (by simpa using he')
    · simp only
      rcases hx : eachDb f l with ⟨l', e | xs⟩
      · rw [hx] at h2
        exact fun e' he' => h2 e' (by simpa using he')
      · exact raises_ok _

theorem map_raises {r : Res α} {S : List Err} (h : Raises r S) (f : α → β) : Raises (r.map f) S := by
  rcases r with e | x
  · exact raises_error (h e rfl)
  · exact raises_ok _

theorem compound_reads {O : DbOps ω σ α} {w : ω} {H G L : List Err} (h : ReadsRaise O w H G L) (hi : Err.indexError ∈ G)
    (hb : Err.badObject ∈ G) (hg : ∀ e ∈ H, e ∈ G) : ReadsRaise (compoundOps O) w H G L := by
  refine ⟨compound_raises h.has, ?_, fun c => map_raises (eachDb_raises h.size _) _, fun c => map_raises (eachDb_raises h.shas _) _⟩
  intro c sha hs
  have hq := query_raises h.has c sha hs
  show Raises (c.get O w sha).2 G
  unfold Compound.get
  rcases hx : c.query O w sha with ⟨c', e | i⟩
  · rw [hx] at hq
    intro e' he'
    cases he'
    rcases List.mem_cons.mp (hq e rfl) with rfl | h
    · exact hb
    · exact hg _ h
  · exact onDb_raises hi (fun s => h.get s sha hs) _ i

/-- What `stream` of a `GitDB` may raise. -/
def getErrors : List Err := hasErrors ++ [.badObject, .indexError, .valueError, .zlibError]

/-- What `size` and `sha_iter` of a `GitDB` may raise. -/
def listErrors : List Err := hasErrors ++ [.binasciiError]

theorem loadIndices_raises (dir : PackDir) : ∀ l : List PackItem, Raises (loadIndices dir l).2 hasErrors
  | [] => raises_ok _
  | a :: l => by
    have h1 := index_raises dir a
    have h2 := loadIndices_raises dir l
    unfold loadIndices
    rcases hx : a.index dir with ⟨a', e | x⟩
    · rw [hx] at h1
      exact fun e' he' => h1 e' (by simpa using he')
    · simp only
      rcases hy : loadIndices dir l with ⟨l', e | xs⟩
      · rw [hy] at h2
        exact fun e' he' => h2 e' (by simpa using he')
      · exact raises_ok _

theorem packLists_raises (order : List Bytes → List Bytes) (dir : Option PackDir) (db : PackedDB) :
    Raises (db.size order dir).2 listErrors ∧ Raises (db.shaIter order dir).2 listErrors := by
  have h1 := packLoad_raises order dir db
  unfold PackedDB.size PackedDB.shaIter
  rcases hx : db.load order dir with ⟨db', e | l⟩
  · rw [hx] at h1
    constructor <;> exact fun e' he' => List.mem_append_left _ (h1 e' (by simpa using he'))
  · simp only
    have h2 := loadIndices_raises (dirFiles dir) l
    rcases hy : loadIndices (dirFiles dir) l with ⟨l', e | xs⟩
    · rw [hy] at h2
      constructor <;> exact fun e' he' => List.mem_append_left _ (h2 e' (by simpa using he'))
    · exact ⟨raises_ok _, raises_ok _⟩

theorem packStream_raises (fuel : Nat) (order : List Bytes → List Bytes) (dir : Option PackDir) (db : PackedDB) {sha : Bytes} (hs : sha ≠ []) :
    Raises (db.stream fuel order dir sha).2 getErrors := by
  have h1 := packInfo_raises order dir db hs
  unfold PackedDB.stream
  rcases hx : db.packInfo order dir sha with ⟨db', e | ⟨it, i⟩⟩
  · rw [hx] at h1
    intro e' he'
    cases he'
    rcases List.mem_cons.mp (h1 e rfl) with rfl | h
    · decide
    · exact List.mem_append_left _ h
  · simp only
    have h2 := index_raises (dirFiles dir) it
    unfold PackItem.entity
    rcases hy : (it.index (dirFiles dir)).2 with e | x
    · exact h2.of hy (fun e h => List.mem_append_left _ h)
    · exact (streamAt_raises _ fuel _ i).mono (by decide)

theorem hexToBin_raises : ∀ b : Bytes, Raises (hexToBin b) [.binasciiError]
  | [] => raises_ok _
  | [_] => raises_error (by simp)
  | a :: b :: rest => by
    have ih := hexToBin_raises rest
    unfold hexToBin
    rcases hexVal a with _ | x
    · exact raises_error (by simp)
    · rcases hexVal b with _ | y
      · exact raises_error (by simp)
      · simp only
        rcases h : hexToBin rest with e | r
        · exact ih.of h (fun _ h => h)
        · exact raises_ok _

theorem shaIter_raises (walk : List (Bytes × List Bytes)) : ∀ r ∈ shaIter walk, Raises r [.binasciiError] := by
  intro r hr
  unfold shaIter at hr
  obtain ⟨d, -, hd⟩ := List.mem_flatMap.mp hr
  split at hd
  · cases hd
  · revert hd
    generalize d.2 = fs
    induction fs with
    | nil => intro h; cases h
    | cons f fs ih =>
      intro h
      unfold shaIterFiles at h
      split at h
      · exact ih h
      · rcases List.mem_cons.mp h with rfl | h
        · exact hexToBin_raises _
        · exact ih h

theorem shaCount_raises {S : List Err} : ∀ l : List (Res Bytes), (∀ r ∈ l, Raises r S) → Raises (shaCount l) S
  | [], _ => raises_ok _
  | .error e :: _, h => raises_error (h (.error e) (by simp) e rfl)
  | .ok _ :: l, h => by
    have ih := shaCount_raises l (fun r hr => h r (by simp [hr]))
    unfold shaCount
    rcases hx : shaCount l with e | n
    · exact ih.of hx (fun _ h => h)
    · exact raises_ok _

theorem mapM_raises {S : List Err} : ∀ l : List (Res Bytes), (∀ r ∈ l, Raises r S) → Raises (l.mapM id) S
  | [], _ => raises_ok _
  | r :: l, h => by
    have ih := mapM_raises l (fun r hr => h r (by simp [hr]))
    rw [List.mapM_cons]
    exact raises_bind (h r (by simp)) fun a _ => raises_bind ih fun b _ => raises_ok _

theorem leaf_reads (fuel : Nat) (order : List Bytes → List Bytes) (getL : Fs → Bytes → Res OStream)
    (hg : ∀ fs sha, Raises (getL fs sha) [.badObject, .valueError, .zlibError]) (D : Disk) :
    ReadsRaise (leafOps order (fun d db sha => db.stream fuel order d sha) getL) D hasErrors getErrors listErrors := by
  constructor
  · intro s sha hs
    cases s with
    | stop => exact raises_error (by decide)
    | pack r db => exact packHas_raises order (D.pack r) db hs
    | loose r db => exact raises_ok _
  · intro s sha hs
    cases s with
    | stop => exact raises_error (by decide)
    | pack r db => exact packStream_raises fuel order (D.pack r) db hs
    | loose r db => exact (hg (D.looseAt r).1 sha).mono (by decide)
  · intro s
    cases s with
    | stop => exact raises_error (by decide)
    | pack r db => exact (packLists_raises order (D.pack r) db).1
    | loose r db => exact (shaCount_raises _ (shaIter_raises (D.looseAt r).2)).mono (by decide)
  · intro s
    cases s with
    | stop => exact raises_error (by decide)
    | pack r db => exact (packLists_raises order (D.pack r) db).2
    | loose r db => exact (mapM_raises _ (shaIter_raises (D.looseAt r).2)).mono (by decide)

theorem refUse_raises {D : Disk} {order : List Text → List Text} (ho : order [] = []) (mk : Disk → Text → Option σ)
    (hr : ∀ q e, D.alt q = some (.error e) → e ∈ [Err.osError, .fileNotFound, .permissionError, .unicodeError])
    {f : Compound (Text × σ) → Compound (Text × σ) × Res β} {S : List Err} (hS : ∀ e ∈ hasErrors, e ∈ S)
    (hf : ∀ c, Raises (f c).2 S) (r : RefNode σ) : Raises (r.use order mk D f).2 S := by
  have hl := refLoad_raises order mk hr ho r
  unfold RefNode.use
  rcases hx : r.db.load order (mk D) (D.altFile r.root) with ⟨db, e | l⟩
  · rw [hx] at hl
    exact fun e' he' => hS _ (hl e' (by simpa using he'))
  · exact hf _

theorem stateUse_raises {D : Disk} {f : Compound (GitLeaf ⊕ RefNode σ) → Compound (GitLeaf ⊕ RefNode σ) × Res β} {S : List Err}
    (hS : ∀ e ∈ hasErrors, e ∈ S) (hf : ∀ c, Raises (f c).2 S) (t : GitState σ) : Raises (t.use D f).2 S := by
  have hl := gitLoad_raises D t
  unfold GitState.use
  rcases hx : t.load D with ⟨g, e | l⟩
  · rw [hx] at hl
    exact fun e' he' => hS _ (hl e' (by simpa using he'))
  · exact hf _

theorem git_reads (fuel : Nat) (order : List Bytes → List Bytes) {orderT : List Text → List Text} (ho : orderT [] = [])
    (getL : Fs → Bytes → Res OStream) (hg : ∀ fs sha, Raises (getL fs sha) [.badObject, .valueError, .zlibError]) {D : Disk}
    (hr : ∀ q e, D.alt q = some (.error e) → e ∈ [Err.osError, .fileNotFound, .permissionError, .unicodeError]) :
    ∀ n : Nat, ReadsRaise (liveOps orderT (leafOps order (fun d db sha => db.stream fuel order d sha) getL) n) D hasErrors getErrors listErrors
  | 0 => ⟨fun _ _ _ => raises_error (by decide), fun _ _ _ => raises_error (by decide), fun _ => raises_error (by decide),
      fun _ => raises_error (by decide)⟩
  | n + 1 => by
    have h1 : ∀ e ∈ hasErrors, e ∈ getErrors := fun e h => List.mem_append_left _ h
    have h2 : ∀ e ∈ hasErrors, e ∈ listErrors := fun e h => List.mem_append_left _ h
    have hL := leaf_reads fuel order getL hg D
    have ih := git_reads fuel order ho getL hg hr n
    have hp : ReadsRaise (pairOps (liveOps orderT (leafOps order (fun d db sha => db.stream fuel order d sha) getL) n)) D
        hasErrors getErrors listErrors := ⟨fun s => ih.has s.2, fun s => ih.get s.2, fun s => ih.size s.2, fun s => ih.shas s.2⟩
    have hc := compound_reads hp (by decide) (by decide) h1
    have hR : ReadsRaise (refOps orderT (newNode n) (liveOps orderT (leafOps order (fun d db sha => db.stream fuel order d sha) getL) n)) D
        hasErrors getErrors listErrors :=
      ⟨fun r sha hs => refUse_raises ho _ hr (fun _ h => h) (fun c => hc.has c sha hs) r,
        fun r sha hs => refUse_raises ho _ hr h1 (fun c => hc.get c sha hs) r,
        fun r => refUse_raises ho _ hr h2 (fun c => hc.size c) r, fun r => refUse_raises ho _ hr h2 (fun c => hc.shas c) r⟩
    have hS : ReadsRaise (sumOps (leafOps order (fun d db sha => db.stream fuel order d sha) getL)
        (refOps orderT (newNode n) (liveOps orderT (leafOps order (fun d db sha => db.stream fuel order d sha) getL) n))) D
        hasErrors getErrors listErrors := by
      constructor
      · rintro (s | s)
        · exact hL.has s
        · exact hR.has s
      · rintro (s | s)
        · exact hL.get s
        · exact hR.get s
      · rintro (s | s)
        · exact hL.size s
        · exact hR.size s
      · rintro (s | s)
        · exact hL.shas s
        · exact hR.shas s
    have hC := compound_reads hS (by decide) (by decide) h1
    exact ⟨fun t sha hs => stateUse_raises (fun _ h => h) (fun c => hC.has c sha hs) t,
      fun t sha hs => stateUse_raises h1 (fun c => hC.get c sha hs) t,
      fun t => stateUse_raises h2 (fun c => hC.size c) t, fun t => stateUse_raises h2 (fun c => hC.shas c) t⟩

/-- **C94** `stream(sha)`, `size()` and `sha_iter()` of a `GitDB` in any state - after any history, also with exceptions - on any disk:
the only exceptions. -/
theorem C94_git (zl : Zlib) (L : ZlibLaws zl) (fuel : Nat) (order : List Bytes → List Bytes) {orderT : List Text → List Text}
    (ho : orderT [] = []) (noatime second : Bool) {D : Disk}
    (hr : ∀ q e, D.alt q = some (.error e) → e ∈ [Err.osError, .fileNotFound, .permissionError, .unicodeError]) (n : Nat) (t : GitNode n) :
    let O := liveOps orderT (leafOps order (fun d db sha => db.stream fuel order d sha) fun fs sha => looseOStream zl fs noatime second sha) n
    (∀ sha, sha ≠ [] → Raises (O.get D t sha).2 [.badObject, .fileNotFound, .structError, .parseError, .assertionError, .unicodeError,
      .invalidDBRoot, .indexError, .valueError, .zlibError, .diverge]) ∧
    Raises (O.size D t).2 [.fileNotFound, .structError, .parseError, .assertionError, .unicodeError, .invalidDBRoot, .binasciiError, .diverge] ∧
    Raises (O.shas D t).2 [.fileNotFound, .structError, .parseError, .assertionError, .unicodeError, .invalidDBRoot, .binasciiError,
      .diverge] := by
  intro O
  have hg : ∀ fs sha, Raises (looseOStream zl fs noatime second sha) [.badObject, .valueError, .zlibError] := by
    intro fs sha
    have h := (C94_loose zl L fs noatime second sha).1
    unfold looseOStream
    rcases hx : looseStream zl fs noatime second sha with e | ⟨ty, sz, r⟩
    · exact h.of hx (fun _ h => h)
    · exact raises_ok _
  have h := git_reads fuel order ho (fun fs sha => looseOStream zl fs noatime second sha) hg hr n
  exact ⟨fun sha hs => (h.get t sha hs).mono (by decide), (h.size t).mono (by decide), (h.shas t).mono (by decide)⟩

/-! ## Examples -/

/-- An empty file, damaged data, a directory, and no file. -/
example : looseStream toyZlib (fun _ => some (.file [] 0o444)) true true [7] = .error .valueError ∧
    looseStream toyZlib (fun _ => some (.file [251] 0o444)) true true [7] = .error .zlibError ∧
    looseInfo toyZlib (fun _ => some (.file [251] 0o444)) true true [7] = .error .zlibError ∧
    looseInfo toyZlib (fun _ => some (.file [1, 255] 0o444)) true true [7] = .error .valueError ∧
    looseStream toyZlib (fun _ => some .dir) true true [7] = .error .badObject ∧
    looseInfo toyZlib (fun _ => none) true true [7] = .error .badObject := by
  refine ⟨rfl, ?_, ?_, ?_, rfl, rfl⟩ <;> decide +kernel

/-- A repository with one file in its object directory, named by 2 + 38 bytes, of these contents. -/
def oneFileDisk (name : Bytes) (c : Bytes) : Disk where
  pack := fun _ => none
  loose := fun _ => some (fun _ => some (.file c 0o444), [(name.take 2, [name.drop 2])])
  alt := fun _ => none

/-- A damaged object, a file whose name is not one of an object. -/
example :
    let O := liveOps id (leafOps id (fun d db sha => db.stream 5 id d sha) fun fs sha => looseOStream toyZlib fs true true sha) 1
    (O.get (oneFileDisk (List.replicate 40 0x30) [251]) (freshNode 1 rootA) [7]).2.map (fun _ => ()) = .error .zlibError ∧
    (O.get (oneFileDisk (List.replicate 40 0x30) []) (freshNode 1 rootA) [7]).2.map (fun _ => ()) = .error .valueError ∧
    (O.size (oneFileDisk (List.replicate 40 0x30) [251]) (freshNode 1 rootA)).2 = .ok 1 ∧
    (O.size (oneFileDisk (List.replicate 40 0x7a) [251]) (freshNode 1 rootA)).2 = .error .binasciiError ∧
    (O.shas (oneFileDisk (List.replicate 40 0x7a) [251]) (freshNode 1 rootA)).2 = .error .binasciiError ∧
    (O.get bareDisk (freshNode 1 rootA) [7]).2.map (fun _ => ()) = .error .badObject := by
  intro O
  refine ⟨?_, ?_, ?_, ?_, ?_, ?_⟩ <;> decide +kernel

end GitDB.Props
