import Verif.Model.Values
import Verif.Props.Names
/-!
# C60: value objects
-/
set_option autoImplicit false

namespace GitDB.Props
open GitDB Spec

variable {V : Type}

/-- **C60** information about an object: the attributes are what the object was made of, `hexsha` is the hex
form of the name, and nothing else exists. -/
theorem C60_info (sizeOf : V → Res Nat) (sha : Bytes) (type size : PyVal V) :
    let t := newOInfo (.name (.bytes sha)) type size
    t.attr sizeOf .binsha = .ok (.name (.bytes sha)) ∧
    (∃ h, t.attr sizeOf .hexsha = .ok (.name (.bytes h)) ∧ IsHexOf h sha) ∧
    t.attr sizeOf .type = .ok type ∧ t.attr sizeOf .size = .ok size ∧
    t.attr sizeOf .packOffset = .error .attributeError ∧ t.attr sizeOf .deltaInfo = .error .attributeError ∧
    t.attr sizeOf .stream = .error .attributeError ∧ t.attr sizeOf .error = .error .attributeError ∧
    t.readFrom = .error .attributeError :=
  ⟨rfl, ⟨_, rfl, binToHex_isHexOf sha⟩, rfl, rfl, rfl, rfl, rfl, rfl, rfl⟩

/-- **C60** streams have the attributes of the information, and `read` goes to the stream. -/
theorem C60_stream (sizeOf : V → Res Nat) (sha type size : PyVal V) (v : V) (a : BaseAttr) :
    let t := newOStream sha type size (.stream v)
    (a ≠ .stream → t.attr sizeOf a = (newOInfo sha type size).attr sizeOf a) ∧
    t.attr sizeOf .stream = .ok (.stream v) ∧ t.readFrom = .ok (.stream v) := by
  refine ⟨?_, rfl, rfl⟩
  intro ha
  cases a <;> first | rfl | exact absurd rfl ha

/-- **C60** a delta stream differs from a stream in its `size` only, which is the one of the stream object. -/
theorem C60_delta_stream (sizeOf : V → Res Nat) (sha type size : PyVal V) (v : V) (a : BaseAttr) :
    let t := newODeltaStream sha type size (.stream v)
    (a ≠ .size → t.attr sizeOf a = (newOStream sha type size (.stream v)).attr sizeOf a) ∧
    t.attr sizeOf .size = (sizeOf v).map .int ∧ t.readFrom = .ok (.stream v) := by
  refine ⟨?_, rfl, rfl⟩
  intro ha
  cases a <;> first | rfl | exact absurd rfl ha

/-- **C60** pack information: the attributes are what it was made of, there is no name; the delta classes add
`delta_info`, the stream classes add `stream`. -/
theorem C60_pack (sizeOf : V → Res Nat) (off type size delta : PyVal V) (v : V) (a : BaseAttr) :
    let i := newOPackInfo off type size
    (i.attr sizeOf .packOffset = .ok off ∧ i.attr sizeOf .typeId = .ok type ∧ i.attr sizeOf .size = .ok size ∧
      i.attr sizeOf .binsha = .error .attributeError ∧ i.attr sizeOf .hexsha = .error .attributeError ∧
      i.attr sizeOf .deltaInfo = .error .attributeError ∧ i.attr sizeOf .stream = .error .attributeError) ∧
    (a ≠ .deltaInfo → (newODeltaPackInfo off type size delta).attr sizeOf a = i.attr sizeOf a) ∧
    (newODeltaPackInfo off type size delta).attr sizeOf .deltaInfo = .ok delta ∧
    (a ≠ .stream → (newOPackStream off type size (.stream v)).attr sizeOf a = i.attr sizeOf a) ∧
    (newOPackStream off type size (.stream v)).attr sizeOf .stream = .ok (.stream v) ∧
    (newOPackStream off type size (.stream v)).readFrom = .ok (.stream v) ∧
    (a ≠ .stream → (newODeltaPackStream off type size delta (.stream v)).attr sizeOf a =
      (newODeltaPackInfo off type size delta).attr sizeOf a) ∧
    (newODeltaPackStream off type size delta (.stream v)).attr sizeOf .stream = .ok (.stream v) ∧
    (newODeltaPackStream off type size delta (.stream v)).readFrom = .ok (.stream v) := by
  refine ⟨⟨rfl, rfl, rfl, rfl, rfl, rfl, rfl⟩, ?_, rfl, ?_, rfl, rfl, ?_, rfl, rfl⟩ <;>
    (intro ha; cases a <;> first | rfl | exact absurd rfl ha)

/-- **C60** `type` and `type_id` of an object found in a pack agree with those of the object handed out: for
the four types of objects (and the two kinds of deltas) an `OInfo` with the `type` of the pack information has
its `type_id`; the ids 0 and 5, which git reserves, have the type `b''`, for which there is no id. -/
theorem C60_type (sizeOf : V → Res Nat) (off size sha : PyVal V) (k : Nat) :
    (k ∈ [1, 2, 3, 4, 6, 7] → ∃ ty, (newOPackInfo off (.int k) size).attr sizeOf .type = .ok ty ∧
      (newOInfo sha ty size).attr sizeOf .typeId = .ok (.int k)) ∧
    (k = 0 ∨ k = 5 → ∃ ty, (newOPackInfo off (.int k) size).attr sizeOf .type = .ok ty ∧
      (newOInfo sha ty size).attr sizeOf .typeId = .error .keyError) ∧
    (7 < k → (newOPackInfo off (.int k) size).attr sizeOf .type = .error .keyError) := by
  refine ⟨fun h => ?_, fun h => ?_, fun h => ?_⟩
  · simp only [List.mem_cons, List.not_mem_nil, or_false] at h
    rcases h with rfl | rfl | rfl | rfl | rfl | rfl <;> exact ⟨_, rfl, rfl⟩
  · rcases h with rfl | rfl <;> exact ⟨_, rfl, rfl⟩
  · have e : typeIdToType k = .error .keyError := by
      simp only [typeIdToType, if_neg (show ¬ k = 0 by omega), if_neg (show ¬ k = 1 by omega),
        if_neg (show ¬ k = 2 by omega), if_neg (show ¬ k = 3 by omega), if_neg (show ¬ k = 4 by omega),
        if_neg (show ¬ k = 5 by omega), 
        if_neg (show ¬ k = OFS_DELTA by unfold OFS_DELTA; omega),
        if_neg (show ¬ k = REF_DELTA by unfold REF_DELTA; omega)]
    show (typeIdToType k).map PyVal.name = _
    rw [e]
    rfl

/-- Attributes of an input stream which can be assigned. -/
def assignable : List BaseAttr := [.binsha, .type, .size, .stream, .error]

/-- A well formed input stream: five items. -/
def IsIStream (t : PyTuple V) : Prop := t.cls = .iStream ∧ t.items.length = 5

/-- **C60** a new input stream: no error; no name unless it is given. -/
theorem C60_input_new (sizeOf : V → Res Nat) (type size sha : PyVal V) (v : V) :
    let t := newIStream type size (.stream v) sha
    IsIStream t ∧ t.attr sizeOf .type = .ok type ∧ t.attr sizeOf .size = .ok size ∧
    t.attr sizeOf .stream = .ok (.stream v) ∧ t.attr sizeOf .binsha = .ok sha ∧
    t.attr sizeOf .error = .ok .none ∧ t.readFrom = .ok (.stream v) ∧
    (newIStream type size (.stream v)).attr sizeOf .binsha = .ok .none ∧
    (newIStream type size (.stream v)).attr sizeOf .hexsha = .error .typeError :=
  ⟨⟨rfl, rfl⟩, rfl, rfl, rfl, rfl, rfl, rfl, rfl, rfl⟩

/-- **C60** assigning to an attribute of an input stream, in any state: it has the value from then on, every
other attribute that can be assigned keeps its value, `hexsha` follows `binsha`, and `read` follows `stream`. -/
theorem C60_input_assign (sizeOf : V → Res Nat) (t : PyTuple V) (ht : IsIStream t) (a : BaseAttr)
    (ha : a ∈ assignable) (v : PyVal V) :
    ∃ t', t.setAttr a v = .ok t' ∧ IsIStream t' ∧ t'.attr sizeOf a = .ok v ∧
      (∀ b ∈ assignable, b ≠ a → t'.attr sizeOf b = t.attr sizeOf b) ∧
      (a ≠ .binsha → t'.attr sizeOf .hexsha = t.attr sizeOf .hexsha) ∧
      (∀ n, a = .binsha → v = .name (.bytes n) →
        ∃ h, t'.attr sizeOf .hexsha = .ok (.name (.bytes h)) ∧ IsHexOf h n) ∧
      t'.readFrom = t'.attr sizeOf .stream := by
  obtain ⟨c, items, d⟩ := t
  obtain ⟨h1, h2⟩ := ht
  simp only at h1 h2
  subst h1
  match items, h2 with
  | [x0, x1, x2, x3, x4], _ =>
    simp only [assignable, List.mem_cons, List.not_mem_nil, or_false] at ha
    rcases ha with rfl | rfl | rfl | rfl | rfl <;>
    · refine ⟨_, rfl, ⟨rfl, rfl⟩, rfl, ?_, ?_, ?_, rfl⟩
      · intro b hb hne
        simp only [assignable, List.mem_cons, List.not_mem_nil, or_false] at hb
        rcases hb with rfl | rfl | rfl | rfl | rfl <;> first | rfl | exact absurd rfl hne
      · intro h; first | rfl | exact absurd rfl h
      · intro n h hv
        first
          | cases h; done
          | (subst hv; exact ⟨_, rfl, binToHex_isHexOf n⟩)

/-- **C60** everything handed out by a database cannot be changed: assigning to any attribute of any other class than `IStream` is
refused, with one exception: a delta stream accepts attributes that it does not have otherwise.  They change nothing else. -/
theorem C60_read_only (sizeOf : V → Res Nat) (t : PyTuple V) (h : t.cls ≠ .iStream) (a : BaseAttr) (v : PyVal V) :
    t.setAttr a v = .error .attributeError ∨
    (t.cls = .oDeltaStream ∧ a ∈ [.packOffset, .deltaInfo, .error] ∧
      ∃ t', t.setAttr a v = .ok t' ∧ t'.cls = t.cls ∧ t'.items = t.items ∧ t'.attr sizeOf a = .ok v ∧
        (∀ b, b ≠ a → t'.attr sizeOf b = t.attr sizeOf b) ∧ t'.readFrom = t.readFrom) := by
  obtain ⟨c, items, d⟩ := t
  cases c <;> first | exact absurd rfl h | skip
  all_goals cases a
  all_goals first
    | exact .inl rfl
    | (refine .inr ⟨rfl, by simp, _, rfl, rfl, rfl, rfl, ?_, rfl⟩
       intro b hb
       cases b <;> first | exact absurd rfl hb | rfl)

/-- **C60** and it does accept them: assigning to a delta stream one of the attributes that it does not have otherwise succeeds, and the
attribute has that value then, also after other such attributes were assigned. -/
theorem C60_delta_accepts (sizeOf : V → Res Nat) (t : PyTuple V) (h : t.cls = .oDeltaStream) (a : BaseAttr) (v : PyVal V)
    (ha : a ∈ [.packOffset, .deltaInfo, .error]) : ∃ t', t.setAttr a v = .ok t' ∧ t'.cls = .oDeltaStream ∧ t'.attr sizeOf a = .ok v ∧
      ∀ b w, b ≠ a → ∀ t'', t'.setAttr b w = .ok t'' → t''.attr sizeOf a = .ok v := by
  obtain ⟨c, items, d⟩ := t
  cases h
  simp only [List.mem_cons, List.not_mem_nil, or_false] at ha
  rcases ha with rfl | rfl | rfl
  all_goals
    refine ⟨_, rfl, rfl, rfl, ?_⟩
    intro b w hb t'' h''
    cases b <;> first | exact absurd rfl hb | (cases h''; rfl) | cases h''

/-- **C60** the record of a failure cannot be created: `InvalidOInfo(sha, exc)` raises `TypeError`. -/
theorem C60_invalid_raises (sha e : PyVal V) : newInvalidOInfo sha e = .error .typeError := rfl

/-- **C60** only if its `__init__` is avoided it has name and exception. -/
theorem C60_invalid (sizeOf : V → Res Nat) (sha : Bytes) (e : PyVal V) :
    let t := bareInvalidOInfo (V := V) (.name (.bytes sha)) e
    t.attr sizeOf .binsha = .ok (.name (.bytes sha)) ∧
    (∃ h, t.attr sizeOf .hexsha = .ok (.name (.bytes h)) ∧ IsHexOf h sha) ∧ t.attr sizeOf .error = .ok e ∧
    t.attr sizeOf .type = .error .attributeError ∧ t.attr sizeOf .size = .error .attributeError :=
  ⟨rfl, ⟨_, rfl, binToHex_isHexOf sha⟩, rfl, rfl, rfl⟩

/-- **C60** two objects of a class are equal iff all of their parts are. -/
theorem C60_equal (a b c a' b' c' : PyVal V) :
    newOInfo a b c = newOInfo a' b' c' ↔ a = a' ∧ b = b' ∧ c = c' := by
  simp [newOInfo]

/-- **C60** limitation: an input stream has no `type_id`, which `PackEntity.write_pack` asks for
(`gitdb/pack.py` 965): the objects to be packed cannot be the ones given to `store`. -/
theorem C60_input_no_type_id (sizeOf : V → Res Nat) (type size stream sha : PyVal V) :
    (newIStream type size stream sha).attr sizeOf .typeId = .error .attributeError := rfl

example : (newOPackInfo (V := Unit) (.int 12) (.int 3) (.int 5)).attr (fun _ => .ok 0) .type =
    .ok (.name (.bytes strBlobType)) := by decide
example : IsIStream (newIStream (.name (.bytes strBlobType)) (.int 5) (.stream ())) := ⟨rfl, rfl⟩
example : ((newIStream (.name (.bytes strBlobType)) (.int 5) (.stream ())).setAttr .binsha
    (.name (.bytes [0xab]))).map (fun t => t.attr (fun _ => .ok 0) .hexsha) =
    .ok (.ok (.name (.bytes [0x61, 0x62]))) := by decide
example : (newODeltaStream (V := Nat) .none (.name (.bytes strBlobType)) .none (.stream 7)).attr .ok .size =
    .ok (.int 7) := by decide
/-- Both cases of `C60_read_only`. -/
example : ((newODeltaStream (V := Nat) .none .none .none (.stream 7)).setAttr .error (.int 1)).map (fun t => t.attr .ok .error) =
      .ok (.ok (.int 1)) ∧
    (newODeltaStream (V := Nat) .none .none .none (.stream 7)).setAttr .size (.int 1) = .error .attributeError ∧
    (newOStream (V := Nat) .none .none .none (.stream 7)).setAttr .error (.int 1) = .error .attributeError := by decide

end GitDB.Props
