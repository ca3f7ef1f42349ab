import Verif.Props.Names
import Verif.Props.PackedDB
import Verif.Props.Values
import Verif.Props.Writers
import Verif.Props.Window
/-!
# C05, C17, C20, C42, C60, C70: details
-/
set_option autoImplicit false

namespace GitDB.Props
open GitDB Spec

/-! ## C05 -/

/-- The lower case of a hex digit. -/
def lowerDigit (c : UInt8) : UInt8 := if 65 ≤ c.toNat ∧ c.toNat ≤ 70 then UInt8.ofNat (c.toNat + 32) else c

theorem hexVal_iff (c : UInt8) (n : Nat) : hexVal c = some n ↔ hexAscii[n]? = some (lowerDigit c) := by
  have key : ∀ k < 256, ∀ n < 16, hexVal (UInt8.ofNat k) = some n ↔ hexAscii[n]? = some (lowerDigit (UInt8.ofNat k)) := by decide +kernel
  have big : ∀ k < 256, ∀ n, hexVal (UInt8.ofNat k) = some n → n < 16 := by
    intro k hk n h
    unfold hexVal at h
    repeat' split at h
    all_goals first | (simp only [Option.some.injEq] at h; omega) | cases h
  by_cases hn : n < 16
  · have := key c.toNat (toNat_lt c) n hn
    rwa [UInt8.ofNat_toNat] at this
  · constructor
    · intro h
      exact absurd (big c.toNat (toNat_lt c) n (by rw [UInt8.ofNat_toNat]; exact h)) hn
    · intro h
      exact absurd (List.getElem?_eq_some_iff.mp h).1 hn

theorem isHexOf_cons (a b : UInt8) (h : Bytes) (x : UInt8) (xs : Bytes) : IsHexOf (a :: b :: h) (x :: xs) ↔
    hexAscii[x.toNat / 16]? = some a ∧ hexAscii[x.toNat % 16]? = some b ∧ IsHexOf h xs := by
  unfold IsHexOf
  rw [nibbles_cons]
  simp only [List.map_cons, List.cons.injEq]
  exact ⟨fun ⟨h1, h2, h3⟩ => ⟨h1.symm, h2.symm, h3⟩, fun ⟨h1, h2, h3⟩ => ⟨h1.symm, h2.symm, h3⟩⟩

/-- **C05** `hex_to_bin` decodes exactly the strings that are, in lower or upper case, the hex representation of something, to what
they represent; for everything else it raises `binascii.Error`. -/
theorem C05_decodes : ∀ (h b : Bytes), (hexToBin h = .ok b ↔ IsHexOf (h.map lowerDigit) b) ∧
    ((∃ b, hexToBin h = .ok b) ∨ hexToBin h = .error .binasciiError)
  | [], b => by
    refine ⟨?_, .inl ⟨[], rfl⟩⟩
    cases b with
    | nil => exact ⟨fun _ => rfl, fun _ => rfl⟩
    | cons x xs => exact ⟨fun h => (nomatch h), fun h => by simp [IsHexOf, nibbles_cons] at h⟩
  | [a], b => by
    refine ⟨⟨fun h => (nomatch h), fun h => ?_⟩, .inr rfl⟩
    cases b with
    | nil => simp [IsHexOf, nibbles] at h
    | cons x xs => simp [IsHexOf, nibbles_cons] at h
  | a :: c :: t, b => by
    have ih := fun b => C05_decodes t b
    rcases ha : hexVal a with _ | n
    · have e : hexToBin (a :: c :: t) = .error .binasciiError := by simp only [hexToBin, ha]
      refine ⟨⟨fun h => absurd (e.symm.trans h) (fun h => by cases h), fun h => ?_⟩, .inr e⟩
      cases b with
      | nil => simp [IsHexOf, nibbles] at h
      | cons x xs =>
        rw [List.map_cons, List.map_cons, isHexOf_cons] at h
        rw [(hexVal_iff a _).mpr h.1] at ha
        cases ha
    · rcases hc : hexVal c with _ | m
      · have e : hexToBin (a :: c :: t) = .error .binasciiError := by simp only [hexToBin, ha, hc]
        refine ⟨⟨fun h => absurd (e.symm.trans h) (fun h => by cases h), fun h => ?_⟩, .inr e⟩
        cases b with
        | nil => simp [IsHexOf, nibbles] at h
        | cons x xs =>
          rw [List.map_cons, List.map_cons, isHexOf_cons] at h
          rw [(hexVal_iff c _).mpr h.2.1] at hc
          cases hc
      · have h1 := (hexVal_iff a n).mp ha
        have h2 := (hexVal_iff c m).mp hc
        have hn : n < 16 := (List.getElem?_eq_some_iff.mp h1).1
        have hm : m < 16 := (List.getElem?_eq_some_iff.mp h2).1
        have hv : (UInt8.ofNat (16 * n + m)).toNat = 16 * n + m := by rw [toNat_ofNat]; omega
        have e : hexToBin (a :: c :: t) = match hexToBin t with
            | .ok r => .ok (UInt8.ofNat (16 * n + m) :: r)
            | .error e => .error e := by simp only [hexToBin, ha, hc]; rfl
        constructor
        · constructor
          · intro h
            rw [e] at h
            rcases ht : hexToBin t with e' | r
            · rw [ht] at h; cases h
            · rw [ht] at h
              cases h
              rw [List.map_cons, List.map_cons, isHexOf_cons, hv]
              refine ⟨?_, ?_, ((ih r).1).mp ht⟩
              · rw [show (16 * n + m) / 16 = n by omega]; exact h1
              · rw [show (16 * n + m) % 16 = m by omega]; exact h2
          · intro h
            cases b with
            | nil => simp [IsHexOf, nibbles] at h
            | cons x xs =>
              rw [List.map_cons, List.map_cons, isHexOf_cons] at h
              have g1 := (hexVal_iff a _).mpr h.1
              have g2 := (hexVal_iff c _).mpr h.2.1
              rw [ha] at g1
              rw [hc] at g2
              rw [e, ((ih xs).1).mpr h.2.2]
              simp only [Option.some.injEq] at g1 g2
              simp only
              rw [g1, g2, byte_split]
        · rw [e]
          rcases (ih []).2 with ⟨r, hr⟩ | hr
          · exact .inl ⟨_, by rw [hr]⟩
          · exact .inr (by rw [hr])

/-- Odd, not hex, and mixed case. -/
example : hexToBin [0x61, 0x62, 0x63] = .error .binasciiError ∧ hexToBin [0x61, 0x67] = .error .binasciiError ∧
    hexToBin [0x41, 0x62] = .ok [0xab] := by decide

/-! ## C17 -/

/-- **C17** the compressing writer in memory can be rewound only: any other `seek` raises `ValueError` and has no effect. -/
theorem C17_seek {zl : Zlib} (w : ZippedStoreShaWriter zl) (offset whence : Int) (h : (offset, whence) ≠ (0, 0)) :
    w.seek offset whence = (w, .error .valueError) := by
  unfold ZippedStoreShaWriter.seek
  rw [if_pos]
  by_cases h0 : offset = 0
  · exact .inr fun h1 => h (by rw [h0, h1])
  · exact .inl h0

example : ((0, 2) : Int × Int) ≠ (0, 0) := by decide

/-! ## C60 -/

/-- **C60** `type_id` of an object is the id of its type; for anything that is no name of a type there is a `KeyError`. -/
theorem C60_type_id {V : Type} (sizeOf : V → Res Nat) (sha type size : PyVal V) :
    (∃ t i, (t, i) ∈ objectTypes ∧ type = .name (.bytes t) ∧ (newOInfo sha type size).attr sizeOf .typeId = .ok (.int i)) ∨
    (type = .name (.str "OFS_DELTA") ∧ (newOInfo sha type size).attr sizeOf .typeId = .ok (.int 6)) ∨
    (type = .name (.str "REF_DELTA") ∧ (newOInfo sha type size).attr sizeOf .typeId = .ok (.int 7)) ∨
    ((∀ t i, (t, i) ∈ objectTypes → type ≠ .name (.bytes t)) ∧ type ≠ .name (.str "OFS_DELTA") ∧ type ≠ .name (.str "REF_DELTA") ∧
      (newOInfo sha type size).attr sizeOf .typeId = .error .keyError) := by
  have ho : objectTypes = [(strCommitType, 1), (strTreeType, 2), (strBlobType, 3), (strTagType, 4)] := by decide +kernel
  rw [ho]
  have hattr : (newOInfo sha type size).attr sizeOf .typeId = idOf type := rfl
  rw [hattr]
  by_cases h1 : type = .name (.bytes strCommitType)
  · subst h1; exact .inl ⟨_, 1, by simp, rfl, rfl⟩
  by_cases h2 : type = .name (.bytes strTreeType)
  · subst h2; exact .inl ⟨_, 2, by simp, rfl, rfl⟩
  by_cases h3 : type = .name (.bytes strBlobType)
  · subst h3; exact .inl ⟨_, 3, by simp, rfl, rfl⟩
  by_cases h4 : type = .name (.bytes strTagType)
  · subst h4; exact .inl ⟨_, 4, by simp, rfl, rfl⟩
  by_cases h5 : type = .name (.str "OFS_DELTA")
  · subst h5; exact .inr (.inl ⟨rfl, rfl⟩)
  by_cases h6 : type = .name (.str "REF_DELTA")
  · subst h6; exact .inr (.inr (.inl ⟨rfl, rfl⟩))
  refine .inr (.inr (.inr ⟨?_, h5, h6, ?_⟩))
  · intro t i h
    simp only [List.mem_cons, Prod.mk.injEq, List.not_mem_nil, or_false] at h
    rcases h with ⟨rfl, rfl⟩ | ⟨rfl, rfl⟩ | ⟨rfl, rfl⟩ | ⟨rfl, rfl⟩ <;> assumption
  · cases type with
    | name n =>
      have g1 : n ≠ .bytes strCommitType := fun e => h1 (by rw [e])
      have g2 : n ≠ .bytes strTreeType := fun e => h2 (by rw [e])
      have g3 : n ≠ .bytes strBlobType := fun e => h3 (by rw [e])
      have g4 : n ≠ .bytes strTagType := fun e => h4 (by rw [e])
      have g5 : n ≠ .str "OFS_DELTA" := fun e => h5 (by rw [e])
      have g6 : n ≠ .str "REF_DELTA" := fun e => h6 (by rw [e])
      simp only [idOf, typeToTypeId, g1, g2, g3, g4, g5, g6, if_false]
      rfl
    | none => rfl
    | int n => rfl
    | stream v => rfl
    | exc e => rfl

example : (newOInfo (V := Unit) .none (.name (.str "blob")) (.int 1)).attr (fun _ => .ok 0) .typeId = .error .keyError ∧
    (newOInfo (V := Unit) .none (.name (.bytes strTagType)) (.int 1)).attr (fun _ => .ok 0) .typeId = .ok (.int 4) := ⟨rfl, rfl⟩

/-! ## C70 -/

/-- **C70** `stream(offset)` of a pack that is mapped in regions: offset 0 is the first entry, for the others the entry has to lie in the
region at its offset. -/
theorem C70_stream {zl : Zlib} (L : ZlibLaws zl) (w : Regions) (p : PackFile) (off : Nat) (e : Packed)
    (h : EntryAt zl p.data (if off = 0 then 12 else off) e) (hw : (if off = 0 then 12 else off) + e.bytes.length ≤ w (if off = 0 then 12 else off)) :
    ∃ o, p.streamW w off = .ok o ∧ Presents zl (if off = 0 then 12 else off, e) o := by
  obtain ⟨o, h1, h2, -⟩ := C70_entry L w p.data _ e h hw
  exact ⟨o, h1, h2⟩

example := C70_stream Deflate.storedZlib_laws (fun _ => 32) ⟨eightPack, 2, 1⟩ 0 eightE eight_at (by decide)

/-! ## C20, C42 -/

/-- **C20** an abbreviation of fewer than three digits is a `ValueError` of the first pack, before its index is opened; only a database
without packs answers `BadObject`. -/
theorem C20_packed_short (order : List Bytes → List Bytes) (dir : Option PackDir) (db : PackedDB) (l : List PackItem)
    (hl : db.entities = some l) (part : Bytes) (n : Nat) (h : part.length < 2) :
    db.partialToComplete order dir part n = (db, .error (if l = [] then .badObject else .valueError)) := by
  have hload : db.load order dir = (db, .ok l) := by unfold PackedDB.load; rw [hl]
  have hdb : { db with entities := some l } = db := by cases db; cases hl; rfl
  unfold PackedDB.partialToComplete
  rw [hload]
  cases l with
  | nil => simp only [completeLoop, if_true]; rw [hdb]
  | cons it l =>
    have : it.complete (dirFiles dir) part n = (it, .error .valueError) := by unfold PackItem.complete; rw [if_pos h]
    simp only [completeLoop, this]
    rw [hdb, if_neg (by simp)]

theorem scan_hits (dir : PackDir) (sha : Bytes) : ∀ l : List PackItem, ((scanItems dir sha l).1.map PackItem.hits).sum =
    (l.map PackItem.hits).sum + (match (scanItems dir sha l).2 with | .ok (some _) => 1 | _ => 0)
  | [] => rfl
  | a :: l => by
    have ih := scan_hits dir sha l
    have ha : (a.find dir sha).1.hits = a.hits := (find_fst dir a sha).2
    unfold scanItems
    rcases hf : a.find dir sha with ⟨a1, e | (_ | i)⟩
    · rw [hf] at ha
      simp only at ha
      simp [ha]
    · rw [hf] at ha
      simp only at ha
      simp only [List.map_cons, List.sum_cons, ha, ih]
      omega
    · rw [hf] at ha
      simp only at ha
      simp only [List.map_cons, List.sum_cons, ha]
      omega

/-- **C42** how lookups order the packs: a successful one counts one more hit, for the database and for one pack; at every 500th hit
the packs are put in the order of their hits first, most hits first; otherwise the order is kept. -/
theorem C42_hits (order : List Bytes → List Bytes) (dir : Option PackDir) (db : PackedDB) (l : List PackItem)
    (hl : db.entities = some l) (sha : Bytes) :
    ∃ l1 l2, (if db.hitCount % 500 = 0 then l1.Perm l ∧ l1.Pairwise (fun a b => b.hits ≤ a.hits) else l1 = l) ∧
      (db.hasObject order dir sha).1.entities = some l2 ∧ l2.map PackItem.path = l1.map PackItem.path ∧
      (db.hasObject order dir sha).1.hitCount = db.hitCount + (if (db.hasObject order dir sha).2 = .ok true then 1 else 0) ∧
      (l2.map PackItem.hits).sum = (l.map PackItem.hits).sum + (if (db.hasObject order dir sha).2 = .ok true then 1 else 0) := by
  have hload : db.load order dir = (db, .ok l) := by unfold PackedDB.load; rw [hl]
  obtain ⟨l1, hl1⟩ : ∃ l1, (if db.hitCount % sortInterval = 0 then sortItems l else l) = l1 := ⟨_, rfl⟩
  have hsum : (l1.map PackItem.hits).sum = (l.map PackItem.hits).sum := by
    rw [← hl1]
    split
    · exact ((sortItems_perm l).map _).sum_nat
    · rfl
  refine ⟨l1, (scanItems (dirFiles dir) sha l1).1, ?_, ?_⟩
  · rw [← hl1]
    show if db.hitCount % sortInterval = 0 then _ else _
    by_cases h : db.hitCount % sortInterval = 0
    · rw [if_pos h, if_pos h]; exact ⟨sortItems_perm l, sortItems_sorted l⟩
    · rw [if_neg h, if_neg h]
  · have h1 := scan_hits (dirFiles dir) sha l1
    have h2 := scan_paths (dirFiles dir) sha l1
    unfold PackedDB.hasObject PackedDB.packInfo
    rw [hload]
    simp only [hl1]
    rcases hs : scanItems (dirFiles dir) sha l1 with ⟨l2, e | (_ | o)⟩
    · rw [hs] at h1 h2
      simp only [Nat.add_zero] at h1
      have : ¬ (Except.error e : Res Bool) = .ok true := fun h => by cases h
      cases e <;> simp [h1, h2, hsum]
    · rw [hs] at h1 h2
      simp only [Nat.add_zero] at h1
      simp [h1, h2, hsum]
    · rw [hs] at h1 h2
      simp only at h1
      simp [h1, h2, hsum]

/-- Two packs, the second with more hits; neither has an index that can be opened: abbreviations of two digits. -/
example := C20_packed_short id (some ⟨1, []⟩) { entities := some [⟨1, nameA, ⟨emptyPack, 2, 0⟩, none⟩, ⟨3, nameB, ⟨emptyPack, 2, 0⟩, none⟩] } _
  rfl [0xc0] 2 (by decide)

/-- With the index of the second mapped: at hit 1500 it comes first, and is found there. -/
example : (PackedDB.hasObject id none { entities := some [⟨1, nameA, ⟨emptyPack, 2, 0⟩, some (indexV2 [] [] [])⟩,
    ⟨3, nameB, ⟨emptyPack, 2, 0⟩, some (indexV1 (exEntries.take 1) [] [])⟩], hitCount := 1500 }
    ((exEntries.take 1).map Entry.name).flatten).1.entities.map (List.map fun it => (it.hits, it.path)) =
    some [(4, nameB), (1, nameA)] := by decide +kernel

end GitDB.Props
